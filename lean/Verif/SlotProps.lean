import Verif.SlotJobs

/-!
# Property theorems about the timeline (C01, C02, C47)
-/

namespace Oar.Kao
open Spec

/-! ## C01 : the timeline stays a partition -/

/-- The operations of the API that change the slots. -/
inductive Op where
  | splitBefore (sid : Nat) (date : Int)
  | splitAfter (sid : Nat) (date : Int)
  | findAndSplitAt (date : Int)
  | splitSlots (left right : Nat) (job : Job) (w : Int) (R : ProcSet) (sub : Bool)
  | splitJobs (jobs : List Job) (sub : Bool)
  | temporalSplit (fuel : Nat) (sid rid : Nat) (rem : Int)

/-- Run one operation; `none` when it raises. The calendar used by `temporalSplit` is the one of `ctx`. -/
def Op.run (ctx : Ctx) (ss : SlotSet) : Op → Option SlotSet
  | .splitBefore sid date => (ss.splitBefore ctx sid date).map (·.1)
  | .splitAfter sid date => (ss.splitAfter ctx sid date).map (·.1)
  | .findAndSplitAt date => (ss.findAndSplitAt ctx date).map (·.1)
  | .splitSlots l r job w R sub => ss.splitSlots ctx l r job w R sub
  | .splitJobs jobs sub => ss.splitJobs ctx jobs sub
  | .temporalSplit fuel sid rid rem => (SlotSet.temporalSplit fuel ctx ss sid rid rem).map (·.2.1)

/-- Run a history of operations. -/
def runOps (ctx : Ctx) : SlotSet → List Op → Option SlotSet
  | ss, [] => some ss
  | ss, op :: ops => (op.run ctx ss).bind (fun ss' => runOps ctx ss' ops)

/-- Well formed with the same bounds. -/
def Good (ss ss' : SlotSet) : Prop := WF ss' ∧ ss'.begin_ = ss.begin_ ∧ ss'.end_ = ss.end_

theorem Good.trans {a b c : SlotSet} (h1 : Good a b) (h2 : Good b c) : Good a c :=
  ⟨h2.1, h2.2.1.trans h1.2.1, h2.2.2.trans h1.2.2⟩

theorem splitBefore_good {ctx : Ctx} {ss : SlotSet} {sid : Nat} {date : Int} {x : SlotSet × Nat × Nat}
    (hwf : WF ss) (h : ss.splitBefore ctx sid date = some x) : Good ss x.1 := by
  obtain ⟨c, hc⟩ := hwf
  cases hg : ss.get? sid with
  | none => unfold SlotSet.splitBefore at h; rw [hg] at h; split at h <;> simp at h
  | some s =>
    obtain ⟨hm, rfl⟩ := get_mem hg
    obtain ⟨l, r, rfl⟩ := List.append_of_mem (hc.mem_iff.1 hm)
    have h0 := (hc.range s (by simp)).1
    by_cases hin : date ≥ s.b ∧ date ≤ s.e
    · by_cases he : s.b = s.e
      · unfold SlotSet.splitBefore at h
        rw [if_neg (by omega), hg] at h
        simp only [if_neg (not_not.2 hin), if_pos he, Option.some.injEq] at h
        subst h
        exact ⟨⟨_, hc⟩, rfl, rfl⟩
      · have hb := (tiled_bounds _ _ _ hc.tiled).2 s (by simp)
        obtain ⟨ss', s', n, l', e1, hp, _, _, _, _, hbg, hen, _⟩ :=
          splitBefore_part (ctx := ctx) hc hin.1 hin.2 (by omega)
        rw [e1, Option.some.injEq] at h
        subst h
        exact ⟨⟨_, hp⟩, hbg, hen⟩
    · unfold SlotSet.splitBefore at h
      rw [if_neg (by omega), hg] at h
      simp only [if_pos hin] at h
      simp at h

theorem splitAfter_good {ctx : Ctx} {ss : SlotSet} {sid : Nat} {date : Int} {x : SlotSet × Nat × Nat}
    (hwf : WF ss) (h : ss.splitAfter ctx sid date = some x) : Good ss x.1 := by
  obtain ⟨c, hc⟩ := hwf
  cases hg : ss.get? sid with
  | none => unfold SlotSet.splitAfter at h; rw [hg] at h; split at h <;> simp at h
  | some s =>
    obtain ⟨hm, rfl⟩ := get_mem hg
    obtain ⟨l, r, rfl⟩ := List.append_of_mem (hc.mem_iff.1 hm)
    have h0 := (hc.range s (by simp)).1
    by_cases hin : date ≥ s.b ∧ date ≤ s.e
    · by_cases he : s.b = s.e
      · unfold SlotSet.splitAfter at h
        rw [if_neg (by omega), hg] at h
        simp only [if_neg (not_not.2 hin), if_pos he, Option.some.injEq] at h
        subst h
        exact ⟨⟨_, hc⟩, rfl, rfl⟩
      · have hb := (tiled_bounds _ _ _ hc.tiled).2 s (by simp)
        obtain ⟨ss', s', n, r', e1, hp, _, _, _, _, hbg, hen, _⟩ :=
          splitAfter_part (ctx := ctx) hc hin.1 hin.2 (by omega)
        rw [e1, Option.some.injEq] at h
        subst h
        exact ⟨⟨_, hp⟩, hbg, hen⟩
    · unfold SlotSet.splitAfter at h
      rw [if_neg (by omega), hg] at h
      simp only [if_pos hin] at h
      simp at h

theorem modify_good {ss : SlotSet} {sid : Nat} {f : Slot → Slot} (hf : Keeps f) (hwf : WF ss) :
    Good ss (ss.modify sid f) := by
  obtain ⟨c, hc⟩ := hwf
  by_cases hm : ∃ s ∈ c, s.id = sid
  · obtain ⟨s, hs, rfl⟩ := hm
    obtain ⟨l, r, rfl⟩ := List.append_of_mem hs
    exact ⟨⟨_, modify_part hf hc⟩, rfl, rfl⟩
  · have : ss.modify sid f = ss := by
      have e := map_upd_of_not_mem (l := ss.slots) (sid := sid) (f := f) (by
        intro hmem
        obtain ⟨s, hs, e⟩ := List.mem_map.1 hmem
        exact hm ⟨s, hc.mem_iff.1 hs, e⟩)
      unfold SlotSet.modify
      rw [e]
    rw [this]
    exact ⟨⟨c, hc⟩, rfl, rfl⟩

theorem applyList_good {f : Slot → Slot} (hf : Keeps f) : ∀ (M : List Slot) (ss : SlotSet), WF ss →
    Good ss (M.foldl (fun s x => s.modify x.id f) ss)
  | [], ss, h => ⟨h, rfl, rfl⟩
  | x :: M, ss, h => by
    have h1 := modify_good (sid := x.id) hf h
    exact h1.trans (applyList_good hf M _ h1.1)

theorem splitSlots_good {ctx : Ctx} {ss ss' : SlotSet} {l r : Nat} {job : Job} {w : Int} {R : ProcSet}
    {sub : Bool} (hwf : WF ss) (h : ss.splitSlots ctx l r job w R sub = some ss') : Good ss ss' := by
  unfold SlotSet.splitSlots at h
  split at h
  · simp at h
  · rename_i sl hsl
    split at h
    · simp at h
    · rename_i ss1 left' h1
      have g1 : Good ss ss1 := by
        split at h1
        · cases e : ss.splitBefore ctx l job.startTime with
          | none => rw [e] at h1; simp at h1
          | some y =>
            rw [e] at h1
            simp only [Option.map_some, Option.some.injEq, Prod.mk.injEq] at h1
            rw [← h1.1]; exact splitBefore_good hwf e
        · simp only [Option.some.injEq, Prod.mk.injEq] at h1
          rw [← h1.1]; exact ⟨hwf, rfl, rfl⟩
      split at h
      · simp at h
      · split at h
        · simp at h
        · rename_i ss2 right' h2
          have g2 : Good ss1 ss2 := by
            split at h2
            · cases e : ss1.splitAfter ctx r (job.startTime + w) with
              | none => rw [e] at h2; simp at h2
              | some y =>
                rw [e] at h2
                simp only [Option.map_some, Option.some.injEq, Prod.mk.injEq] at h2
                rw [← h2.1]; exact splitAfter_good g1.1 e
            · simp only [Option.some.injEq, Prod.mk.injEq] at h2
              rw [← h2.1]; exact ⟨g1.1, rfl, rfl⟩
          simp only [Option.some.injEq] at h
          subst h
          exact (g1.trans g2).trans (applyList_good (keeps_effect ctx job w R sub) _ _ g2.1)

theorem splitJobsLoop_good {ctx : Ctx} {sub : Bool} : ∀ (jobs : List Job) (ss ss' : SlotSet) (f : Nat),
    WF ss → SlotSet.splitJobsLoop ctx sub jobs ss f = some ss' → Good ss ss'
  | [], ss, ss', f, hwf, h => by
    simp only [SlotSet.splitJobsLoop, Option.some.injEq] at h
    subst h; exact ⟨hwf, rfl, rfl⟩
  | j :: js, ss, ss', f, hwf, h => by
    unfold SlotSet.splitJobsLoop at h
    split at h
    · simp at h
    · rename_i ss1 f1 h1
      have g : Good ss ss1 := by
        unfold SlotSet.splitJobStep at h1
        split at h1
        · split at h1
          · split at h1
            · simp at h1
            · split at h1
              · simp at h1
              · rename_i hsp
                simp only [Option.some.injEq, Prod.mk.injEq] at h1
                rw [← h1.1]; exact splitSlots_good hwf hsp
          · simp only [Option.some.injEq, Prod.mk.injEq] at h1
            rw [← h1.1]; exact ⟨hwf, rfl, rfl⟩
        · simp at h1
      exact g.trans (splitJobsLoop_good js ss1 ss' f1 g.1 h)

theorem keeps_setSlotRules (ctx : Ctx) (rid : Nat) : Keeps (setSlotRules ctx rid) :=
  fun _ => ⟨rfl, rfl, rfl, rfl, rfl⟩

theorem temporalSplit_good : ∀ (fuel : Nat) (ctx : Ctx) (ss : SlotSet) (sid rid : Nat) (rem : Int)
    (x : Ctx × SlotSet × Option Nat × Int), WF ss → SlotSet.temporalSplit fuel ctx ss sid rid rem = some x →
    Good ss x.2.1
  | 0, _, _, _, _, _, _, _, h => by simp [SlotSet.temporalSplit] at h
  | fuel + 1, ctx, ss, sid, rid, rem, x, hwf, h => by
    unfold SlotSet.temporalSplit at h
    split at h
    · rename_i c slot hcal hget
      dsimp only at h
      by_cases hd : slot.e - slot.b + 1 ≤ rem
      · rw [if_pos hd, Option.some.injEq] at h
        subst h
        exact modify_good (keeps_setSlotRules ctx rid) hwf
      · rw [if_neg hd] at h
        cases hsp : SlotSet.splitAfter ctx ss sid (slot.b + rem) with
        | none => rw [hsp] at h; simp at h
        | some y =>
          obtain ⟨ss1, i, newId⟩ := y
          have g1 := splitAfter_good hwf hsp
          have g2 := g1.trans (modify_good (sid := sid) (keeps_setSlotRules ctx rid) g1.1)
          rw [hsp] at h
          dsimp only at h
          split at h
          · simp at h
          · split at h
            · simp at h
            · split at h
              · simp only [Option.some.injEq] at h
                subst h; exact g2
              · split at h
                · simp only [Option.some.injEq] at h
                  subst h; exact g2
                · exact g2.trans (temporalSplit_good fuel _ _ _ _ _ x g2.1 h)
    · simp at h

theorem op_good {ctx : Ctx} {ss ss' : SlotSet} (op : Op) (hwf : WF ss) (h : op.run ctx ss = some ss') :
    Good ss ss' := by
  cases op with
  | splitBefore sid date =>
    simp only [Op.run, Option.map_eq_some_iff] at h
    obtain ⟨x, hx, rfl⟩ := h
    exact splitBefore_good hwf hx
  | splitAfter sid date =>
    simp only [Op.run, Option.map_eq_some_iff] at h
    obtain ⟨x, hx, rfl⟩ := h
    exact splitAfter_good hwf hx
  | findAndSplitAt date =>
    simp only [Op.run, Option.map_eq_some_iff] at h
    obtain ⟨x, hx, rfl⟩ := h
    unfold SlotSet.findAndSplitAt at hx
    split at hx
    · simp at hx
    · exact splitAfter_good hwf hx
  | splitSlots l r job w R sub => exact splitSlots_good hwf h
  | splitJobs jobs sub =>
    simp only [Op.run, SlotSet.splitJobs] at h
    split at h
    · simp at h
    · exact splitJobsLoop_good _ _ _ _ hwf h
  | temporalSplit fuel sid rid rem =>
    simp only [Op.run, Option.map_eq_some_iff] at h
    obtain ⟨x, hx, rfl⟩ := h
    exact temporalSplit_good _ _ _ _ _ _ _ hwf hx

/-- A fresh slot set is a partition: `SlotSet((itvs, b))` and `SlotSet(Slot(1, 0, 0, itvs, b, e))`. -/
theorem fresh_wf (ctx : Ctx) (itvs : ProcSet) (b e : Int) :
    (b ≤ maxTime → WF (SlotSet.ofItvs ctx itvs b)) ∧
    (b ≤ e → WF (SlotSet.ofSlot { id := 1, prev := 0, next := 0, itvs := itvs, b := b, e := e })) := by
  constructor
  · intro h
    refine ⟨_, List.Perm.refl _, by simp [SlotSet.ofItvs], by simp [SlotSet.ofItvs], ?_, ?_, ?_⟩
    · simp [SlotSet.ofItvs]
    · simp [SlotSet.ofItvs, Linked, hd]
    · simp [SlotSet.ofItvs, Tiled, h]
  · intro h
    refine ⟨_, List.Perm.refl _, by simp [SlotSet.ofSlot], by simp [SlotSet.ofSlot], ?_, ?_, ?_⟩
    · simp [SlotSet.ofSlot]
    · simp [SlotSet.ofSlot, Linked, hd]
    · simp [SlotSet.ofSlot, Tiled, h]

/-- **C01.** From any well-formed timeline (in particular a fresh one, `fresh_wf`), after any sequence of
accepted operations of the API, with any arguments, the slots still form a partition of the same
`[begin, end]`. -/
theorem timeline_partition (ctx : Ctx) (ops : List Op) (ss ss' : SlotSet) (h : WF ss)
    (hr : runOps ctx ss ops = some ss') :
    WF ss' ∧ ss'.begin_ = ss.begin_ ∧ ss'.end_ = ss.end_ := by
  induction ops generalizing ss with
  | nil =>
    simp only [runOps, Option.some.injEq] at hr
    subst hr; exact ⟨h, rfl, rfl⟩
  | cons op ops ih =>
    simp only [runOps, Option.bind_eq_some_iff] at hr
    obtain ⟨ss1, h1, h2⟩ := hr
    have g := op_good op h h1
    exact Good.trans g (ih ss1 g.1 h2)

/-- C01. Walking from the first slot along `next` visits all the slots once, in order of date. -/
theorem walk_visits_all (ss : SlotSet) (h : WF ss) :
    ss.slots.Perm (ss.traverse 0 0) ∧ Partition ss (ss.traverse 0 0) := by
  obtain ⟨c, hc⟩ := h
  rw [traverse_all hc]
  exact ⟨hc.perm, hc⟩

/-- C01. The chain is unique, so that "the slot at a date" makes sense: every date of `[begin, end]` is in
exactly one slot. -/
theorem one_slot_per_date (ss : SlotSet) (h : WF ss) (t : Int) (h1 : ss.begin_ ≤ t) (h2 : t ≤ ss.end_) :
    ∃! s, s ∈ ss.slots ∧ s.b ≤ t ∧ t ≤ s.e := by
  obtain ⟨c, hc⟩ := h
  obtain ⟨l, s, r, e, h3, h4⟩ := tiled_cover c _ _ t hc.tiled h1 h2
  refine ⟨s, ⟨hc.mem_iff.2 (by rw [e]; simp), h3, h4⟩, ?_⟩
  rintro s' ⟨hs', h5, h6⟩
  exact tiled_unique c _ _ t hc.tiled s' s (hc.mem_iff.1 hs') (by rw [e]; simp) h5 h6 h3 h4

/-- A context without quotas. -/
def ctx0 : Ctx := ⟨⟨false, [], ["*"], ∅⟩, none⟩

/-- A fresh platform of four resources. -/
def ss0 : SlotSet := SlotSet.ofItvs ctx0 {1, 2, 3, 4} 0

/-- A job on resources 1-2 during `[10, 20)`. -/
def jobA : Job := { id := 1, startTime := 10, walltime := some 10, resSet := some {1, 2} }

-- a non-trivial accepted history, with a boundary split, a job and a date at the begin of a slot
example : (runOps ctx0 ss0 [.splitAfter 1 0, .splitBefore 2 100, .splitJobs [jobA] true,
    .findAndSplitAt 15]).map (fun s => (s.traverse 0 0).map (fun x => (x.id, x.b, x.e, x.itvs))) =
    some [(1, 0, 0, {1, 2, 3, 4}), (4, 1, 9, {1, 2, 3, 4}), (3, 10, 14, {3, 4}), (6, 15, 19, {3, 4}),
      (5, 20, 99, {1, 2, 3, 4}), (2, 100, 2147483648, {1, 2, 3, 4})] := by decide

/-! ## C02 : inserting a job reserves exactly its window -/

/-- Insertion of one job in a timeline by `split_slots_jobs([job])`: what happens at each date. `extra` tells
whether the second following the window is reserved too. -/
theorem insert_pointwise_strong (ctx : Ctx) (ss : SlotSet) (job : Job) (w : Int) (R : ProcSet) (sub : Bool)
    (hwf : WF ss) (hw : 1 ≤ w) (hjw : job.walltime = some w) (hjr : job.resSet = some R)
    (h1 : ss.begin_ ≤ job.startTime + w) (h2 : job.startTime ≤ ss.end_) :
    ∃ ss' extra, ss.splitJobs ctx [job] sub = some ss' ∧ WF ss' ∧ SameMeta ss ss' ∧
      (extra = true → job.startTime + w = ss.begin_ ∨ ∃ s ∈ ss.slots, s.e = job.startTime + w ∧ s.b < job.startTime + w) ∧
      ∀ t, ss'.pay t = (ss.pay t).map (fun p =>
        if job.startTime ≤ t ∧ (t < job.startTime + w ∨ (extra = true ∧ t = job.startTime + w))
        then effect ctx job w R sub p else p) := by
  obtain ⟨c, hc⟩ := hwf
  obtain ⟨f, r, rfl⟩ : ∃ f r, c = f :: r := by
    cases c with
    | nil => exact absurd rfl hc.ne
    | cons f r => exact ⟨f, r, rfl⟩
  have hfb : f.b = ss.begin_ := hc.tiled.1
  obtain ⟨ss', fid', e1, e2, e3, _, _, _, hi, e5, e6⟩ := splitJobStep_strong (ctx := ctx) (sub := sub) (f := f)
    ⟨_, hc⟩ (hc.mem_iff.2 (by simp)) (Or.inr hfb) hjw hjr hw ⟨h1, h2⟩
  have hrun : ss.splitJobs ctx [job] sub = some ss' := by
    simp only [SlotSet.splitJobs, hc.first, SlotSet.splitJobsLoop, e1]
  by_cases hx : hi = job.startTime + w
  · refine ⟨ss', true, hrun, e2, e3, ?_, ?_⟩
    · intro _
      rcases e6 with e6 | e6
      · omega
      · exact e6.2
    · intro t
      rw [e5]
      have : ∀ p, (if job.startTime ≤ t ∧ t ≤ hi then effect ctx job w R sub p else p) =
          (if job.startTime ≤ t ∧ (t < job.startTime + w ∨ (true = true ∧ t = job.startTime + w))
            then effect ctx job w R sub p else p) := by
        intro p
        by_cases hcase : job.startTime ≤ t ∧ t ≤ hi
        · rw [if_pos hcase, if_pos (by refine ⟨hcase.1, ?_⟩; simp; omega)]
        · rw [if_neg hcase, if_neg (by rintro ⟨h3, h4⟩; apply hcase; simp at h4; omega)]
      simp only [this]
  · refine ⟨ss', false, hrun, e2, e3, by simp, ?_⟩
    have hhi : hi = min (job.startTime + w - 1) ss.end_ := by
      rcases e6 with e6 | e6
      · exact e6
      · exact absurd e6.1 hx
    intro t
    rw [e5]
    cases hp : ss.pay t with
    | none => rfl
    | some p =>
      have := (pay_isSome_iff ⟨_, hc⟩ t).1 (by rw [hp]; rfl)
      simp only [Option.map_some, Option.some.injEq]
      by_cases hcase : job.startTime ≤ t ∧ t ≤ hi
      · rw [if_pos hcase, if_pos (by refine ⟨hcase.1, Or.inl ?_⟩; omega)]
      · rw [if_neg hcase, if_neg (by rintro ⟨h3, h4⟩; apply hcase; simp at h4; omega)]

/-- The same, forgetting where the last slot begins. -/
theorem insert_pointwise (ctx : Ctx) (ss : SlotSet) (job : Job) (w : Int) (R : ProcSet) (sub : Bool)
    (hwf : WF ss) (hw : 1 ≤ w) (hjw : job.walltime = some w) (hjr : job.resSet = some R)
    (h1 : ss.begin_ ≤ job.startTime + w) (h2 : job.startTime ≤ ss.end_) :
    ∃ ss' extra, ss.splitJobs ctx [job] sub = some ss' ∧ WF ss' ∧ SameMeta ss ss' ∧
      (extra = true → job.startTime + w = ss.begin_ ∨ ∃ s ∈ ss.slots, s.e = job.startTime + w) ∧
      ∀ t, ss'.pay t = (ss.pay t).map (fun p =>
        if job.startTime ≤ t ∧ (t < job.startTime + w ∨ (extra = true ∧ t = job.startTime + w))
        then effect ctx job w R sub p else p) := by
  obtain ⟨ss', extra, e1, e2, e3, e4, e5⟩ := insert_pointwise_strong ctx ss job w R sub hwf hw hjw hjr h1 h2
  refine ⟨ss', extra, e1, e2, e3, ?_, e5⟩
  intro h
  rcases e4 h with h | ⟨s, hs, h, _⟩
  · exact Or.inl h
  · exact Or.inr ⟨s, hs, h⟩

theorem free_map_sub {ctx : Ctx} {ss ss' : SlotSet} {job : Job} {w : Int} {R : ProcSet} {t : Int}
    {P : Prop} [Decidable P] (h : WF ss) (h' : WF ss')
    (e : ss'.pay t = (ss.pay t).map (fun p => if P then effect ctx job w R true p else p)) (x : Nat) :
    Free ss' t x ↔ Free ss t x ∧ ¬ (x ∈ R ∧ P) := by
  rw [free_iff h, free_iff h', e]
  cases hp : ss.pay t with
  | none => simp
  | some p =>
    by_cases hP : P
    · simp [hP, effect_itvs_sub, Finset.mem_sdiff]
    · simp [hP]

theorem free_map_add {ctx : Ctx} {ss ss' : SlotSet} {job : Job} {w : Int} {R : ProcSet} {t : Int}
    {P : Prop} [Decidable P] (h : WF ss) (h' : WF ss') (hts : job.ts = false) (hph : job.ph = 0)
    (e : ss'.pay t = (ss.pay t).map (fun p => if P then effect ctx job w R false p else p)) (x : Nat) :
    Free ss' t x ↔ Free ss t x ∨ (x ∈ R ∧ P ∧ ss.begin_ ≤ t ∧ t ≤ ss.end_) := by
  rw [free_iff h, free_iff h', e, ← pay_isSome_iff h]
  cases hp : ss.pay t with
  | none => simp
  | some p =>
    by_cases hP : P
    · simp [hP, effect_itvs_add ctx job w R p hts hph, Finset.mem_union]
    · simp [hP]

/-- **C02** (what holds). If no slot of the timeline ends exactly at `start + walltime` (and the timeline does not
begin at that date), inserting a job removes its resources exactly during `[start, start + walltime)`.
Missing for the full C02: timelines with such a boundary, see `insert_exact_violated` and
`insert_covers`. -/
theorem insert_exact_partial (ctx : Ctx) (ss : SlotSet) (job : Job) (w : Int) (R : ProcSet) (hwf : WF ss)
    (hw : 1 ≤ w) (hjw : job.walltime = some w) (hjr : job.resSet = some R)
    (h1 : ss.begin_ < job.startTime + w) (h2 : job.startTime ≤ ss.end_)
    (hb : ∀ s ∈ ss.slots, s.e ≠ job.startTime + w) :
    ∃ ss', ss.splitJobs ctx [job] true = some ss' ∧ WF ss' ∧
      ∀ t x, Free ss' t x ↔ Free ss t x ∧ ¬ (x ∈ R ∧ job.startTime ≤ t ∧ t < job.startTime + w) := by
  obtain ⟨ss', extra, e1, e2, _, e3, e4⟩ :=
    insert_pointwise ctx ss job w R true hwf hw hjw hjr (by omega) h2
  have hx : extra = false := by
    cases extra with
    | false => rfl
    | true =>
      rcases e3 rfl with h | ⟨s, hs, h⟩
      · omega
      · exact absurd h (hb s hs)
  subst hx
  refine ⟨ss', e1, e2, fun t x => ?_⟩
  have := free_map_sub hwf e2 (e4 t) x
  simpa using this

/-- **C02** (always). Inserting a job removes its resources at every date of its window, leaves all other dates
unchanged except possibly the single second `start + walltime`, and never touches other resources. -/
theorem insert_covers (ctx : Ctx) (ss : SlotSet) (job : Job) (w : Int) (R : ProcSet) (hwf : WF ss)
    (hw : 1 ≤ w) (hjw : job.walltime = some w) (hjr : job.resSet = some R)
    (h1 : ss.begin_ ≤ job.startTime + w) (h2 : job.startTime ≤ ss.end_) :
    ∃ ss', ss.splitJobs ctx [job] true = some ss' ∧ WF ss' ∧
      (∀ t x, job.startTime ≤ t → t < job.startTime + w → (Free ss' t x ↔ Free ss t x ∧ x ∉ R)) ∧
      (∀ t x, t < job.startTime ∨ job.startTime + w < t → (Free ss' t x ↔ Free ss t x)) ∧
      (∀ t x, x ∉ R → (Free ss' t x ↔ Free ss t x)) ∧ (∀ t x, Free ss' t x → Free ss t x) := by
  obtain ⟨ss', extra, e1, e2, _, e3, e4⟩ :=
    insert_pointwise ctx ss job w R true hwf hw hjw hjr h1 h2
  have key := fun t x => free_map_sub hwf e2 (e4 t) x
  refine ⟨ss', e1, e2, ?_, ?_, ?_, fun t x h => ((key t x).1 h).1⟩
  · intro t x h3 h4
    rw [key t x]
    constructor
    · rintro ⟨h5, h6⟩; exact ⟨h5, fun hx => h6 ⟨hx, h3, Or.inl h4⟩⟩
    · rintro ⟨h5, h6⟩; exact ⟨h5, fun hx => h6 hx.1⟩
  · intro t x h3
    rw [key t x]
    constructor
    · exact fun h => h.1
    · refine fun h => ⟨h, ?_⟩
      rintro ⟨_, h4, h5⟩
      rcases h5 with h5 | h5 <;> omega
  · intro t x hx
    rw [key t x]
    exact ⟨fun h => h.1, fun h => ⟨h, fun h' => hx h'.1⟩⟩

-- the hypotheses of `insert_exact_partial` on the fresh platform
example : WF ss0 ∧ jobA.walltime = some 10 ∧ ss0.begin_ < jobA.startTime + 10 ∧ jobA.startTime ≤ ss0.end_ ∧
    ∀ s ∈ ss0.slots, s.e ≠ jobA.startTime + 10 :=
  ⟨(fresh_wf ctx0 _ 0 0).1 (by decide), rfl, by decide, by decide, by decide⟩

/-- A job that ends one second before a boundary created by `jobB0`. -/
def jobB0 : Job := { id := 2, startTime := 21, walltime := some 10, resSet := some {3} }

/-- C02 is violated: when an existing slot ends exactly at `start + walltime`, the job also reserves that second.
Here `jobB0` starts at 21 so a slot ends at 20 = 10 + 10, and resource 1 is no longer free at date 20 although
`jobA` runs during `[10, 20)`. -/
theorem insert_exact_violated :
    ∃ (ss ss' : SlotSet), ss0.splitJobs ctx0 [jobB0] true = some ss ∧
      ss.splitJobs ctx0 [jobA] true = some ss' ∧
      Free ss 20 1 ∧ ¬ Free ss' 20 1 ∧ jobA.startTime + 10 ≤ 20 := by
  refine ⟨(ss0.splitJobs ctx0 [jobB0] true).get (by decide), ((ss0.splitJobs ctx0 [jobB0] true).bind
    (fun s => s.splitJobs ctx0 [jobA] true)).get (by decide), by decide, by decide, ?_, ?_, by decide⟩
  · exact ⟨{ id := 2, prev := 0, next := 1, itvs := {1, 2, 3, 4}, b := 0, e := 20 }, by decide, by decide,
      by decide, by decide⟩
  · rintro ⟨s, hs, h1, h2, h3⟩
    revert s
    decide

/-! ## C47 : adding back -/

/-- **C47.** Adding a (plain) job's resources to a timeline makes them free at every date of its window which is in
the timeline, and changes nothing at other dates except possibly the second `start + walltime`. -/
theorem add_covers (ctx : Ctx) (ss : SlotSet) (job : Job) (w : Int) (R : ProcSet) (hwf : WF ss)
    (hw : 1 ≤ w) (hjw : job.walltime = some w) (hjr : job.resSet = some R) (hts : job.ts = false)
    (hph : job.ph = 0) (h1 : ss.begin_ ≤ job.startTime + w) (h2 : job.startTime ≤ ss.end_) :
    ∃ ss', ss.splitJobs ctx [job] false = some ss' ∧ WF ss' ∧
      (∀ t x, job.startTime ≤ t → t < job.startTime + w → ss.begin_ ≤ t → t ≤ ss.end_ →
        (Free ss' t x ↔ Free ss t x ∨ x ∈ R)) ∧
      (∀ t x, t < job.startTime ∨ job.startTime + w < t → (Free ss' t x ↔ Free ss t x)) ∧
      (∀ t x, x ∉ R → (Free ss' t x ↔ Free ss t x)) ∧
      ((∀ s ∈ ss.slots, s.e ≠ job.startTime + w) → job.startTime + w ≠ ss.begin_ →
        ∀ x, Free ss' (job.startTime + w) x ↔ Free ss (job.startTime + w) x) := by
  obtain ⟨ss', extra, e1, e2, _, e3, e4⟩ :=
    insert_pointwise ctx ss job w R false hwf hw hjw hjr h1 h2
  have key := fun t x => free_map_add hwf e2 hts hph (e4 t) x
  refine ⟨ss', e1, e2, ?_, ?_, ?_, ?_⟩
  · intro t x h3 h4 h5 h6
    rw [key t x]
    constructor
    · rintro (h | ⟨h, _⟩)
      · exact Or.inl h
      · exact Or.inr h
    · rintro (h | h)
      · exact Or.inl h
      · exact Or.inr ⟨h, ⟨h3, Or.inl h4⟩, h5, h6⟩
  · intro t x h3
    rw [key t x]
    constructor
    · rintro (h | ⟨_, ⟨h4, h5⟩, _⟩)
      · exact h
      · rcases h5 with h5 | h5 <;> omega
    · exact Or.inl
  · intro t x hx
    rw [key t x]
    exact ⟨fun h => h.elim id (fun h' => absurd h'.1 hx), Or.inl⟩
  · intro hb hbeg x
    have hx : extra = false := by
      cases extra with
      | false => rfl
      | true =>
        rcases e3 rfl with h | ⟨s, hs, h⟩
        · exact absurd h hbeg
        · exact absurd h (hb s hs)
    subst hx
    rw [key]
    constructor
    · rintro (h | ⟨_, ⟨_, h5⟩, _⟩)
      · exact h
      · rcases h5 with h5 | h5
        · omega
        · exact absurd h5.1 (by simp)
    · exact Or.inl

-- an empty container timeline in which a container's resources are added
example : (SlotSet.splitJobs ctx0 (SlotSet.ofItvs ctx0 ∅ 1) [jobA] false).map
    (fun s => (s.traverse 0 0).map (fun x => (x.b, x.e, x.itvs))) =
    some [(1, 9, ∅), (10, 19, {1, 2}), (20, 2147483648, ∅)] := by decide

end Oar.Kao
