import Verif.SchedMore

/-!
# Dependencies on a time grid

The boundary case of C02 (a slot that ends exactly at the end of the job) cannot occur when all the dates of the timeline
and all the walltimes are multiples of some unit of at least two seconds.
-/

namespace Oar.Kao
open Spec Oar.Hierarchy

/-- A slot begins at this date. -/
def Bnd (ss : SlotSet) (t : Int) : Prop := ∃ s ∈ ss.slots, s.b = t

theorem KeepsBegins.bnd {a b : SlotSet} (h : KeepsBegins a b) {t : Int} (ht : Bnd a t) : Bnd b t := by
  obtain ⟨s, hs, e⟩ := ht
  obtain ⟨s', hs', _, e'⟩ := h s hs
  exact ⟨s', hs', e'.trans e⟩

theorem begins_fold {f : Slot → Slot} (hf : Keeps f) : ∀ (M : List Slot) (ss : SlotSet),
    ∀ s ∈ (M.foldl (fun s x => s.modify x.id f) ss).slots, Bnd ss s.b
  | [], ss, s, hs => ⟨s, hs, rfl⟩
  | y :: M, ss, s, hs => by
    obtain ⟨x, hx, e⟩ := begins_fold hf M (ss.modify y.id f) s hs
    obtain ⟨z, hz, rfl⟩ := List.mem_map.1 hx
    refine ⟨z, hz, ?_⟩
    by_cases hzy : z.id = y.id
    · rw [if_pos hzy, (hf z).2.2.2.1] at e; exact e
    · rw [if_neg hzy] at e; exact e

/-- Cutting a window whose first slot begins at the start only creates a boundary at the end of the window. -/
theorem split_begins {ctx : Ctx} {ss ss' : SlotSet} {l r : Nat} {job : Job} {w : Int} {R : ProcSet} {sub : Bool}
    (hwin : Window ss l r job.startTime (job.startTime + w - 1))
    (h : ss.splitSlots ctx l r job w R sub = some ss') :
    ∀ s ∈ ss'.slots, Bnd ss s.b ∨ s.b = job.startTime + w := by
  obtain ⟨l0, t, i, r0, a, z, hp, e, rfl, rfl, hab, h1, h2⟩ := hwin
  have hpz : Partition ss ((l0 ++ i) ++ z :: r0) := by
    have : l0 ++ (a :: t) ++ r0 = (l0 ++ i) ++ z :: r0 := by rw [e]; simp
    rw [← this]; exact hp
  unfold SlotSet.splitSlots at h
  have hga : ss.get? a.id = some a := hp.get (by simp)
  rw [hga] at h
  dsimp only at h
  rw [if_neg (by omega)] at h
  dsimp only at h
  have hgz : ss.get? z.id = some z := hpz.get (by simp)
  rw [hgz] at h
  dsimp only at h
  intro s hs
  by_cases hgt : z.e > job.startTime + w
  · obtain ⟨ss1, s1, n, r1, e1, hp1, hr, hs1, hn, _⟩ :=
      splitAfter_part (ctx := ctx) (date := job.startTime + w) hpz (by omega) (by omega) (by omega)
    rw [if_pos hgt, e1] at h
    simp only [Option.map_some, Option.some.injEq] at h
    subst h
    obtain ⟨x, hx, ex⟩ := begins_fold (keeps_effect ctx job w R sub) (ss1.traverse a.id z.id) ss1 s hs
    have hx := hp1.mem_iff.1 hx
    simp only [List.mem_append, List.mem_cons] at hx
    rcases hx with hx | rfl | rfl | hx
    · left; exact ⟨x, hpz.mem_iff.2 (by simp only [List.mem_append]; tauto), ex⟩
    · left
      have hb : x.b = z.b := by
        have := congrArg Slot.b hs1
        exact this
      exact ⟨z, hpz.mem_iff.2 (by simp), hb ▸ ex⟩
    · right
      have := congrArg Slot.b hn
      have h3 : x.b = if z.b = job.startTime + w then z.b + 1 else job.startTime + w := this
      rw [← ex, h3, if_neg (by omega)]
    · left
      obtain ⟨y, hy, ey⟩ := sameCore_mem (c := r1) (c' := r0) hr.symm hx
      have hb : y.b = x.b := by
        have := congrArg Slot.b ey
        exact this
      exact ⟨y, hpz.mem_iff.2 (by simp [hy]), hb.trans ex⟩
  · rw [if_neg hgt] at h
    simp only [Option.some.injEq] at h
    subst h
    exact Or.inl (begins_fold (keeps_effect ctx job w R sub) _ ss s hs)

theorem assignLoop_noCal {job : Job} {hy : Hy} {minStart : Int} (hp : Plain job) :
    ∀ (ms : List Mld) (ctx ctx' : Ctx) (ss ss' : SlotSet) (best best' : Option Best) (n n' : Nat), ctx.cal = none →
    WF ss → CacheIds ss →
    assignLoop job hy minStart ms ctx ss best n = some (ctx', ss', best', n') → SameSlots ss ss'
  | [], ctx, ctx', ss, ss', best, best', n, n', _, _, _, h => by
    simp only [assignLoop, Option.some.injEq, Prod.mk.injEq] at h
    rw [← h.2.1]
    exact ⟨rfl, rfl, rfl, rfl⟩
  | m :: ms, ctx, ctx', ss, ss', best, best', n, n', hc, hwf, hci, h => by
    unfold assignLoop at h
    have rest : ∀ {ctx1 ss1 res best1 n1}, findFirst ctx ss job m hy minStart = some (ctx1, ss1, res) →
        assignLoop job hy minStart ms ctx1 ss1 best1 n1 = some (ctx', ss', best', n') → SameSlots ss ss' := by
      intro ctx1 ss1 res best1 n1 hf h'
      obtain ⟨e, hs⟩ := findFirst_noCal hwf hci hp hc hf
      subst e
      have hwf1 : WF ss1 := by obtain ⟨c, hc⟩ := hwf; exact ⟨c, hs.part hc⟩
      have hci1 : CacheIds ss1 := (findFirst_spec hwf hci hp hf).2
      exact hs.trans (assignLoop_noCal hp ms _ _ _ _ _ _ _ _ hc hwf1 hci1 h')
    split at h
    · simp at h
    · rename_i hf
      exact rest hf h
    · rename_i hf
      split at h
      · simp at h
      · dsimp only at h
        split at h
        · split at h
          · simp at h
          · exact rest hf h
        · exact rest hf h

/-- What an assignment does to the boundaries. -/
theorem assign_begins {ctx ctx' : Ctx} {ss ss' : SlotSet} {job job' : Job} {hy : Hy} {minStart : Int} (hp : Plain job)
    (hwf : WF ss) (hci : CacheIds ss) (hend : ss.end_ < largeEnough) (hc : ctx.cal = none)
    (h : assign ctx ss job hy minStart = some (ctx', ss', job')) :
    (job' = { job with resSet := some ∅, startTime := -1, moldableId := -1 } ∧ SameSlots ss ss') ∨
    ∃ m ∈ job.mlds, job'.walltime = some m.walltime ∧ 0 < m.walltime ∧ Bnd ss job'.startTime ∧
      (∀ s ∈ ss'.slots, Bnd ss s.b ∨ s.b = job'.startTime + m.walltime) ∧
      ((∀ s ∈ ss.slots, s.e ≠ job'.startTime + m.walltime) → job'.startTime + m.walltime ≤ ss.end_ →
        Bnd ss' (job'.startTime + m.walltime)) := by
  unfold assign at h
  split at h
  · simp at h
  · split at h
    · simp at h
    · rename_i ctx1 ss1 best n hl
      have hsame := assignLoop_noCal hp job.mlds _ _ _ _ _ _ _ _ hc hwf hci hl
      obtain ⟨_, _, g3, gc⟩ := assignLoop_spec hp job.mlds job.mlds _ _ _ _ _ _ _ _ (fun _ hm => hm) hwf hci hend
        (Or.inl hc) (by simp) hl
      split at h
      · simp only [Option.some.injEq, Prod.mk.injEq] at h
        obtain ⟨rfl, rfl, rfl⟩ := h
        exact Or.inl ⟨rfl, hsame⟩
      · split at h
        · simp at h
        · rename_i b
          dsimp only at h
          split at h
          · simp at h
          · rename_i ss2 hsp
            simp only [Option.some.injEq, Prod.mk.injEq] at h
            obtain ⟨rfl, rfl, rfl⟩ := h
            have hb := g3 b rfl
            have hpos := hb.pos
            have hwin := hb.win
            rw [hb.fin] at hwin
            have hbb := hsame.1
            let job1 : Job := { job with moldableId := b.mld.id, resSet := some b.res, startTime := b.start,
                                         walltime := some b.mld.walltime }
            refine Or.inr ⟨b.mld, hb.mem, rfl, hpos, ?_, ?_, ?_⟩
            · obtain ⟨l0, t, i, r0, a, z, hpa, _, _, _, hab, _⟩ := hwin
              exact ⟨a, hbb ▸ hpa.mem_iff.2 (by simp), hab⟩
            · have := split_begins (job := job1) hwin hsp
              simpa only [Bnd, hbb] using this
            · intro h1 h2
              exact split_boundary (job := job1) (by omega) hwin (by rw [hbb]; exact h1)
                (by rw [hsame.2.2.1]; exact h2) hsp

/-- All the slots begin on the grid of step `g` through `b0`. -/
def Grid (g b0 : Int) (ss : SlotSet) : Prop := ∀ s ∈ ss.slots, g ∣ s.b - b0

theorem grid_no_end {g b0 : Int} (hg : 2 ≤ g) {ss : SlotSet} (hwf : WF ss) (hgr : Grid g b0 ss) {t : Int}
    (ht : g ∣ t - b0) (hlt : t < ss.end_) : ∀ s ∈ ss.slots, s.e ≠ t := by
  intro s hs he
  obtain ⟨c, hc⟩ := hwf
  obtain ⟨l, r, e⟩ := List.append_of_mem (hc.mem_iff.1 hs)
  cases r with
  | nil =>
    rw [e] at hc
    have := last_slot (l := l) (i := []) (z := s) hc (by simp)
    omega
  | cons y r =>
    rw [e] at hc
    have hadj := tiled_adj hc.tiled
    have h2 := hgr y (hc.mem_iff.2 (by simp))
    have h3 : g ∣ (y.b - b0) - (t - b0) := Int.dvd_sub h2 ht
    have h4 : (y.b - b0) - (t - b0) = 1 := by omega
    rw [h4] at h3
    have := Int.le_of_dvd (by omega) h3
    omega

/-- Invariant of a pass on the grid, for the slot set `n`: each job placed there, and ending before the end of the
timeline, ends at the begin of a slot. -/
def GridInv (n : String) (g b0 : Int) (ids : List Nat) (st : Sched) : Prop :=
  st.ctx.cal = none ∧
  ∃ ss, st.sets.lookup n = some ss ∧ SetOk ss ∧ ss.begin_ = b0 ∧ Grid g b0 ss ∧
    ∀ i ∈ ids, ∀ a, st.job? i = some a → a.setName = n → ∀ w R, a.walltime = some w → a.resSet = some R → R ≠ ∅ →
      ss.begin_ ≤ a.startTime ∧ 0 < w ∧ (a.startTime + w < ss.end_ → Bnd ss (a.startTime + w))

theorem gridInv_step {n : String} {g b0 : Int} (hg : 2 ≤ g) {ids : List Nat} {st st' : Sched} {hy : Hy} {sec : Int}
    {jid : Nat} (hinv : GridInv n g b0 ids st) (hnew : jid ∉ ids)
    (hjob : ∀ job, st.job? jid = some job → Fresh n job ∧ ∀ m ∈ job.mlds, g ∣ m.walltime)
    (h : scheduleOne hy sec st jid = some st') : GridInv n g b0 (jid :: ids) st' := by
  obtain ⟨hcal, ss, hl, hok, hbg, hgr, hall⟩ := hinv
  have hcal' : st'.ctx.cal = none := by rw [scheduleOne_cal h hcal]; exact hcal
  have hold : ∀ i ∈ ids, st'.job? i = st.job? i := fun i hi => scheduleOne_job? h (fun e => hnew (e ▸ hi))
  obtain ⟨job, hj, hid, hcase⟩ := scheduleOne_cases h
  obtain ⟨hfr, hdiv⟩ := hjob job hj
  rcases hcase with ⟨_, hst'⟩ | ⟨minStart, ssj, ctx', ss', job', ctx'', sets', _, hlj, ha, ho, hst'⟩
  · refine ⟨hcal', ss, by rw [hst']; exact hl, hok, hbg, hgr, ?_⟩
    intro i hi a haj hn w R hw hR hne
    by_cases hij : i = jid
    · subst hij
      rw [hst', job?_setJob, if_pos hid.symm, hj] at haj
      simp only [Option.map_some, Option.some.injEq] at haj
      subst haj
      have hR' : job.resSet = some R := hR
      rw [hfr.unset] at hR'
      simp at hR'
    · have him : i ∈ ids := (List.mem_cons.1 hi).resolve_left hij
      exact hall i him a (by rw [← hold i him]; exact haj) hn w R hw hR hne
  · obtain ⟨s1, s2, _⟩ := assign_static ha
    have hno' : ¬ Opens job' n := by
      rintro ⟨v, hv, he⟩
      exact hfr.noOpen ⟨v, by rw [← s2]; exact hv, by rw [← he]; unfold Job.containerName; rw [s1]⟩
    have hlk := openContainer_other hno' ho
    have hlk' : st'.sets.lookup n = sets'.lookup n := by rw [hst']; rfl
    have hget : st'.job? jid = some job' := by
      rw [hst', job?_setJob_ctx, job?_setJob, if_pos (s1.trans hid).symm, hj]
      rfl
    rw [lookup_dictSet] at hlk
    by_cases hn : job.setName = n
    · rw [if_pos hn.symm] at hlk
      rw [hn, hl, Option.some.injEq] at hlj
      subst hlj
      obtain ⟨_, q2, q3, q4, q5, q6, q7⟩ := assign_spec hfr.plain hok.1 hok.2.1 hok.2.2 (Or.inl hcal) ha
      have hok' : SetOk ss' := ⟨q2, q3, by rw [q5]; exact hok.2.2⟩
      have hbeg := assign_begins hfr.plain hok.1 hok.2.1 hok.2.2 hcal ha
      refine ⟨hcal', ss', hlk'.trans hlk, hok', q4.trans hbg, ?_, ?_⟩
      · intro s hs
        rcases hbeg with ⟨_, hsame⟩ | ⟨m, hm, hw, hpos, ⟨x, hx, ex⟩, hb, _⟩
        · rw [hsame.1] at hs; exact hgr s hs
        · rcases hb s hs with ⟨y, hy', ey⟩ | e
          · rw [← ey]; exact hgr y hy'
          · have h1 := hgr x hx
            have h2 := hdiv m hm
            have : s.b - b0 = (x.b - b0) + m.walltime := by omega
            rw [this]
            exact Int.dvd_add h1 h2
      · intro i hi a haj hna w R hw hR hne
        by_cases hij : i = jid
        · subst hij
          rw [hget, Option.some.injEq] at haj
          subst haj
          rcases hbeg with ⟨e, _⟩ | ⟨m, hm, hw', hpos, ⟨x, hx, ex⟩, _, hbn⟩
          · rw [e] at hR
            simp only [Option.some.injEq] at hR
            exact absurd hR.symm hne
          · rw [hw', Option.some.injEq] at hw
            subst hw
            obtain ⟨c, hc⟩ := hok.1
            have hxb := (tiled_bounds _ _ _ hc.tiled).2 x (hc.mem_iff.1 hx)
            refine ⟨by omega, hpos, fun hlt => ?_⟩
            rw [q5] at hlt
            refine hbn (grid_no_end hg hok.1 hgr ?_ hlt) (by omega)
            have h1 := hgr x hx
            have h2 := hdiv m hm
            have : job'.startTime + m.walltime - b0 = (x.b - b0) + m.walltime := by omega
            rw [this]
            exact Int.dvd_add h1 h2
        · have him : i ∈ ids := (List.mem_cons.1 hi).resolve_left hij
          obtain ⟨u1, u2, u3⟩ := hall i him a (by rw [← hold i him]; exact haj) hna w R hw hR hne
          exact ⟨by rw [q4]; exact u1, u2, fun hlt => q6.bnd (u3 (by rw [← q5]; exact hlt))⟩
    · rw [if_neg (fun e => hn e.symm)] at hlk
      refine ⟨hcal', ss, (hlk'.trans hlk).trans hl, hok, hbg, hgr, ?_⟩
      intro i hi a haj hna w R hw hR hne
      by_cases hij : i = jid
      · subst hij
        rw [hget, Option.some.injEq] at haj
        subst haj
        exact absurd ((setName_congr s2).symm.trans hna) hn
      · have him : i ∈ ids := (List.mem_cons.1 hi).resolve_left hij
        exact hall i him a (by rw [← hold i him]; exact haj) hna w R hw hR hne

theorem schedule_append {hy : Hy} {sec : Int} : ∀ (xs ys : List Nat) (st : Sched),
    schedule hy sec (xs ++ ys) st = (schedule hy sec xs st).bind (schedule hy sec ys)
  | [], ys, st => by simp [schedule]
  | x :: xs, ys, st => by
    have e : ∀ zs, schedule hy sec (x :: zs) st = (scheduleOne hy sec st x).bind (schedule hy sec zs) := by
      intro zs
      rw [schedule]
      cases scheduleOne hy sec st x <;> rfl
    rw [List.cons_append, e, e]
    cases scheduleOne hy sec st x with
    | none => rfl
    | some st1 => exact schedule_append xs ys st1

theorem schedule_job? {hy : Hy} {sec : Int} : ∀ (jids : List Nat) (st st' : Sched) (i : Nat), i ∉ jids →
    schedule hy sec jids st = some st' → st'.job? i = st.job? i
  | [], st, st', i, _, h => by
    simp only [schedule, Option.some.injEq] at h
    rw [h]
  | j :: js, st, st', i, hi, h => by
    unfold schedule at h
    cases h1 : scheduleOne hy sec st j with
    | none => rw [h1] at h; simp at h
    | some st1 =>
      rw [h1] at h
      rw [schedule_job? js st1 st' i (fun hm => hi (List.mem_cons_of_mem _ hm)) h,
        scheduleOne_job? h1 (fun e => hi (e ▸ List.mem_cons_self ..))]

theorem gridInv_schedule {n : String} {g b0 : Int} (hg : 2 ≤ g) {hy : Hy} {sec : Int} :
    ∀ (jids ids : List Nat) (st st' : Sched), GridInv n g b0 ids st → jids.Nodup → (∀ i ∈ jids, i ∉ ids) →
    (∀ jid ∈ jids, ∀ job, st.job? jid = some job → Fresh n job ∧ ∀ m ∈ job.mlds, g ∣ m.walltime) →
    schedule hy sec jids st = some st' → ∃ ids', (∀ i, i ∈ ids' ↔ i ∈ jids ∨ i ∈ ids) ∧ GridInv n g b0 ids' st'
  | [], ids, st, st', hinv, _, _, _, h => by
    simp only [schedule, Option.some.injEq] at h
    subst h
    exact ⟨ids, by simp, hinv⟩
  | jid :: jids, ids, st, st', hinv, hnd, hdis, hfresh, h => by
    unfold schedule at h
    cases h1 : scheduleOne hy sec st jid with
    | none => rw [h1] at h; simp at h
    | some st1 =>
      rw [h1] at h
      dsimp only at h
      rw [List.nodup_cons] at hnd
      have hinv1 := gridInv_step hg hinv (hdis jid (by simp)) (hfresh jid (by simp)) h1
      have hother : ∀ i ∈ jids, st1.job? i = st.job? i := fun i hi =>
        scheduleOne_job? h1 (fun e => hnd.1 (e ▸ hi))
      obtain ⟨ids', g1, g2⟩ := gridInv_schedule hg jids (jid :: ids) st1 st' hinv1 hnd.2
        (fun i hi => by
          rw [List.mem_cons]
          rintro (e | e)
          · exact hnd.1 (e ▸ hi)
          · exact hdis i (List.mem_cons_of_mem _ hi) e)
        (fun i hi job hj => hfresh i (List.mem_cons_of_mem _ hi) job (by rw [← hother i hi]; exact hj)) h
      refine ⟨ids', fun i => ?_, g2⟩
      rw [g1, List.mem_cons, List.mem_cons]
      tauto

end Oar.Kao
