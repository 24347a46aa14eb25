import Verif.RoundSpec
import Verif.RoundTimeline
import Verif.LaunchProps
import Verif.ResourceSetProps
import Verif.QueuesProps

/-!
# A resource is never given to two jobs (C95)
-/

namespace Oar.Round

open Oar.Launch Oar.ResSet Oar.JobTypes Oar.Tools Oar.Queues Spec Oar.Kao.Spec

/-! ## Extraction of the jobs from sorted rows -/

theorem treatLast_id (s : RS) (l : List EJob) (h : s.suspendable = [] ∨ ∀ e ∈ l, e.job.state ≠ "Suspended") : treatLast s l = l := by
  rcases h with h | h
  · induction l with
    | nil => rfl
    | cons e l ih =>
      cases l with
      | nil =>
        unfold treatLast
        split
        · rw [h]
          cases e
          simp
        · rfl
      | cons e' l =>
        rw [treatLast, ih]
        simp
  · exact treatLast_waiting s l h

theorem extract_grouped' (s : RS) (sec : Int) (rows : List Row) (hg : Grouped rows)
    (hw : s.suspendable = [] ∨ ∀ r ∈ rows, r.job.state ≠ "Suspended") :
    extract s sec rows = (runs rows).map (mkJob s sec) := by
  unfold extract
  dsimp only
  rw [treatLast_id s _ (hw.imp id (fun hw x hx => by
    obtain ⟨y, hy, rfl⟩ := List.mem_map.1 hx
    exact hw _ (runs_sound rows y hy).1))]
  have hn : (((runs rows).map (mkJob s sec)).map (fun e => e.job.id)).Nodup := by
    rw [List.map_map]
    exact runs_nodup rows hg
  conv => rhs; rw [← List.map_id ((runs rows).map (mkJob s sec))]
  apply List.map_congr_left
  intro e he
  exact lastOf_self _ hn e he

theorem runs_sublist (rows : List Row) : ((runs rows).map (·.1)).Sublist rows := by
  induction rows with
  | nil => exact List.Sublist.refl _
  | cons r rs ih =>
    rw [runs]
    cases h : runs rs with
    | nil => simp
    | cons x t =>
      obtain ⟨r', l⟩ := x
      rw [h] at ih
      dsimp only
      split
      · simp only [List.map_cons]
        refine List.Sublist.cons_cons r ?_
        exact (List.sublist_cons_self r' _).trans ih
      · simp only [List.map_cons]
        exact List.Sublist.cons_cons r ih

/-- Rows in the order of (start, id), where rows of the same job are alike: the rows of a job follow each other. -/
theorem sorted_mem (rows : List Row) (r : Row) : r ∈ sorted rows ↔ r ∈ rows := by
  unfold sorted
  rw [(sorted_spec (fun r : Row => r.job.start) _).1.mem_iff, (sorted_spec (fun r : Row => r.job.id) _).1.mem_iff]

theorem grouped_of_lex : ∀ (l : List Row), (∀ a ∈ l, ∀ b ∈ l, a.job.id = b.job.id → a.job.start = b.job.start) →
    l.Pairwise (fun a b => a.job.start < b.job.start ∨ (a.job.start = b.job.start ∧ a.job.id ≤ b.job.id)) → Grouped l
  | [], _, _ => trivial
  | r :: rs, hs, hp => by
    have hp1 : (∀ b ∈ rs, r.job.start < b.job.start ∨ (r.job.start = b.job.start ∧ r.job.id ≤ b.job.id)) ∧
      rs.Pairwise (fun a b => a.job.start < b.job.start ∨ (a.job.start = b.job.start ∧ a.job.id ≤ b.job.id)) := List.pairwise_cons.1 hp
    refine ⟨grouped_of_lex rs (fun a ha b hb => hs a (List.mem_cons_of_mem _ ha) b (List.mem_cons_of_mem _ hb)) hp1.2, ?_⟩
    rintro ⟨x, hx, e⟩
    cases rs with
    | nil => simp at hx
    | cons y t =>
      refine ⟨y, t, rfl, ?_⟩
      rcases List.mem_cons.1 hx with rfl | hx
      · exact e
      · have h1 := hp1.1 y (by simp)
        have h2 := (List.pairwise_cons.1 hp1.2).1 x hx
        have h3 := hs x (by simp [hx]) r (by simp) e
        rw [h3] at h2
        rw [e] at h2
        omega

/-- Stability gives the order by (start, id). -/
theorem sorted_lex (rows : List Row) :
    (sorted rows).Pairwise (fun a b => a.job.start < b.job.start ∨ (a.job.start = b.job.start ∧ a.job.id ≤ b.job.id)) := by
  unfold sorted
  have h1 := sorted_spec (fun r : Row => r.job.id) rows
  have h2 := sorted_spec (fun r : Row => r.job.start) (pySort (fun r : Row => r.job.id) rows)
  generalize pySort (fun r : Row => r.job.id) rows = l at *
  generalize pySort (fun r : Row => r.job.start) l = o at *
  have hp := h2.2.1
  have hf : ∀ k, (o.filter (fun a => decide (a.job.start = k))).Pairwise (fun a b => a.job.id ≤ b.job.id) := by
    intro k
    rw [h2.2.2 k]
    exact h1.2.1.sublist List.filter_sublist
  clear h1 h2
  induction o with
  | nil => exact List.Pairwise.nil
  | cons a o ih =>
    have hp1 : (∀ b ∈ o, a.job.start ≤ b.job.start) ∧ o.Pairwise (fun a b => a.job.start ≤ b.job.start) := List.pairwise_cons.1 hp
    refine List.pairwise_cons.2 ⟨?_, ih hp1.2 ?_⟩
    · intro b hb
      rcases Int.lt_or_eq_of_le (hp1.1 b hb) with h | h
      · exact Or.inl h
      · right
        refine ⟨h, ?_⟩
        have := hf a.job.start
        rw [List.filter_cons_of_pos (by simp)] at this
        exact (List.pairwise_cons.1 this).1 b (List.mem_filter.2 ⟨hb, by simpa using h.symm⟩)
    · intro k
      exact (hf k).sublist ((List.sublist_cons_self a o).filter _)


/-! ## The jobs given to the timelines -/

theorem lookup_text (k : List Char) : ∀ l : List (List Char × List Char),
    (l.map (fun p => (String.ofList p.1, String.ofList p.2))).lookup (String.ofList k) = (l.lookup k).map String.ofList
  | [] => rfl
  | (a, b) :: l => by
    rw [List.map_cons, List.lookup_cons, List.lookup_cons]
    by_cases h : k = a
    · subst h; simp
    · have h1 : (k == a) = false := by simpa using h
      have h2 : (String.ofList k == String.ofList a) = false := by
        simp only [beq_eq_false_iff_ne, ne_eq]
        intro e
        exact h (String.ofList_injective e)
      rw [h1, h2]
      exact lookup_text k l

theorem toJob_spec {e : EJob} {j : Kao.Job} (h : toJob e = some j) :
    j.startTime = e.start ∧ j.walltime = some e.walltime ∧ j.resSet = some e.res.toFinset ∧
      ∀ k : List Char, j.types.lookup (String.ofList k) = ((tjob e.job).types.lookup k).map String.ofList := by
  unfold toJob at h
  simp only [Option.map_eq_some_iff] at h
  obtain ⟨i, hi, rfl⟩ := h
  refine ⟨rfl, rfl, rfl, fun k => ?_⟩
  rw [lookup_text]
  unfold tjob typesOf
  rw [hi]
  rfl

theorem mapM_toJob : ∀ (sched : List EJob) (js : List Kao.Job), sched.mapM toJob = some js →
    (∀ j ∈ js, ∃ e ∈ sched, toJob e = some j) ∧ (∀ e ∈ sched, ∃ j ∈ js, toJob e = some j) ∧
    (sched.Pairwise (fun a b => a.start ≤ b.start) → js.Pairwise (fun a b => a.startTime ≤ b.startTime))
  | [], js, h => by
    simp only [List.mapM_nil, Option.pure_def, Option.some.injEq] at h
    subst h
    simp
  | e :: sched, js, h => by
    rw [List.mapM_cons] at h
    cases h1 : toJob e with
    | none => rw [h1] at h; simp at h
    | some j =>
      cases h2 : sched.mapM toJob with
      | none => rw [h1, h2] at h; simp at h
      | some js' =>
        rw [h1, h2] at h
        simp only [Option.bind_eq_bind, Option.bind_some, Option.pure_def, Option.some.injEq] at h
        subst h
        obtain ⟨g1, g2, g3⟩ := mapM_toJob sched js' h2
        refine ⟨?_, ?_, ?_⟩
        · intro a ha
          rcases List.mem_cons.1 ha with rfl | ha
          · exact ⟨e, by simp, h1⟩
          · obtain ⟨x, hx, hx2⟩ := g1 a ha
            exact ⟨x, List.mem_cons_of_mem _ hx, hx2⟩
        · intro x hx
          rcases List.mem_cons.1 hx with rfl | hx
          · exact ⟨j, by simp, h1⟩
          · obtain ⟨a, ha, ha2⟩ := g2 x hx
            exact ⟨a, List.mem_cons_of_mem _ ha, ha2⟩
        · intro hp
          have hp1 : (∀ b ∈ sched, e.start ≤ b.start) ∧ sched.Pairwise (fun a b => a.start ≤ b.start) := List.pairwise_cons.1 hp
          refine List.pairwise_cons.2 ⟨?_, g3 hp1.2⟩
          intro a ha
          obtain ⟨x, hx, hx2⟩ := g1 a ha
          rw [(toJob_spec h1).1, (toJob_spec hx2).1]
          exact hp1.1 x hx

/-! ## The resources -/

theorem numbered_inverse {s : RS} {db : DB} (h : Numbered s db) : ∀ k ∈ s.roids, s.i2o (s.o2i k) = k := by
  obtain ⟨susp, labels, rs, hn, hb, _⟩ := h
  exact (numbering_inverse hn hb).2.1

theorem numbered_upto {s : RS} {db : DB} (h : Numbered s db) : ∀ p ∈ s.upto, p.1 < Kao.maxTime := by
  obtain ⟨susp, labels, rs, hn, hb, hu, _⟩ := h
  intro p hp
  obtain ⟨d, l⟩ := p
  obtain ⟨_, hg, _⟩ := (build_inv hn hb).upto
  obtain ⟨hne, _, hk⟩ := hg d l hp
  obtain ⟨k, hk1⟩ := List.exists_mem_of_ne_nil l hne
  obtain ⟨r, h1, _, h3⟩ := (hk k).1 hk1
  rw [← h3]
  exact hu r (List.mem_of_getElem? h1)

theorem numbered_susp {s : RS} {db : DB} (h : Numbered s db) : s.suspendable = [] ∨ ∀ j ∈ db.jobs, j.state ≠ "Suspended" := by
  obtain ⟨susp, labels, rs, hn, hb, _, hs⟩ := h
  rcases hs with rfl | hs
  · left
    have := (build_inv hn hb).suspendable.2
    by_contra hne
    obtain ⟨k, hk⟩ := List.exists_mem_of_ne_nil _ hne
    obtain ⟨r, _, _, h3⟩ := (this k).1 hk
    simp at h3
  · exact Or.inr hs

theorem occupies_iff (j : LJob) : currentStates.contains j.state = true ↔ Occupies j := by
  unfold currentStates Occupies
  rw [List.contains_iff_mem]

/-! ## The initial timeline -/

theorem ofItvs_free (ctx : Kao.Ctx) (R : ProcSet) (b t : Int) (x : Nat) (h : Free (Kao.SlotSet.ofItvs ctx R b) t x) : x ∈ R := by
  obtain ⟨s, hs, _, _, hx⟩ := h
  simp only [Kao.SlotSet.ofItvs, List.mem_singleton] at hs
  subst hs
  exact hx

theorem initial_spec {ctx ctx' : Kao.Ctx} {s : RS} {now : Int} {ss : Kao.SlotSet} (hcal : ctx.cal = none) (hnow : now ≤ Kao.maxTime)
    (hu : ∀ p ∈ s.upto, p.1 < Kao.maxTime) (h : initial ctx s now = some (ctx', ss)) :
    ctx' = ctx ∧ Kao.SetOk ss ∧ ss.begin_ = now ∧ (∀ t x, Free ss t x → x ∈ s.roids) ∧
      (∀ t x, Free ss t x → t < Kao.maxTime → ∀ p ∈ s.upto, x ∈ p.2 → t < p.1) ∧ ss.cache = [] ∧ ss.end_ = Kao.maxTime ∧
      ∀ t x, x ∈ s.roids → now ≤ t → t ≤ Kao.maxTime → (∀ p ∈ s.upto, x ∈ p.2 → t < p.1) → Free ss t x := by
  have h0 : (Kao.SlotSet.ofItvs ctx s.roids.toFinset now).initCalendar ctx = some (ctx, Kao.SlotSet.ofItvs ctx s.roids.toFinset now) := by
    unfold Kao.SlotSet.initCalendar
    rw [hcal]
  have hwf := (Kao.fresh_wf ctx s.roids.toFinset now 0).1 hnow
  have hok : Kao.SetOk (Kao.SlotSet.ofItvs ctx s.roids.toFinset now) :=
    ⟨hwf, fun k i hk => by simp [Kao.SlotSet.ofItvs] at hk, by show Kao.maxTime < Kao.largeEnough; decide⟩
  have hfree : ∀ t x, Free (Kao.SlotSet.ofItvs ctx s.roids.toFinset now) t x → x ∈ s.roids :=
    fun t x hx => List.mem_toFinset.1 (ofItvs_free ctx _ _ t x hx)
  have hlow : ∀ t x, x ∈ s.roids → now ≤ t → t ≤ Kao.maxTime → Free (Kao.SlotSet.ofItvs ctx s.roids.toFinset now) t x := by
    intro t x hx h1 h2
    exact ⟨_, List.mem_singleton.2 rfl, h1, h2, List.mem_toFinset.2 hx⟩
  unfold initial at h
  rw [h0] at h
  dsimp only at h
  split at h
  · rename_i hnil
    simp only [Option.some.injEq, Prod.mk.injEq] at h
    obtain ⟨rfl, rfl⟩ := h
    refine ⟨rfl, hok, rfl, hfree, fun t x _ _ p hp _ => ?_, rfl, rfl, fun t x hx h1 h2 _ => hlow t x hx h1 h2⟩
    unfold pseudo at hnil
    rw [List.map_eq_nil_iff] at hnil
    have := (sorted_spec (fun p : Int × List Nat => p.1) s.upto).1.mem_iff.2 hp
    rw [hnil] at this
    cases this
  · simp only [Option.map_eq_some_iff, Prod.mk.injEq] at h
    obtain ⟨ss', h1, rfl, rfl⟩ := h
    have hsub := Kao.splitJobs_sub hwf (by
      unfold pseudo
      rw [List.pairwise_map]
      exact (sorted_spec (fun p : Int × List Nat => p.1) s.upto).2.1) (by
      intro j hj
      unfold pseudo at hj
      obtain ⟨p, hp, rfl⟩ := List.mem_map.1 hj
      have := hu p ((sorted_spec (fun p : Int × List Nat => p.1) s.upto).1.mem_iff.1 hp)
      exact ⟨_, _, rfl, rfl, by omega⟩) h1
    refine ⟨rfl, hsub.setOk hok, hsub.begin_, fun t x hx => hfree t x (hsub.free t x hx), fun t x hx ht p hp hxp => ?_, hsub.cache, hsub.end_, fun t x hx g1 g2 hno =>
      hsub.back t x (hlow t x hx g1 g2) ?_⟩
    rotate_left
    · intro j hj w R hw hR hxR
      unfold pseudo at hj
      obtain ⟨p, hp, rfl⟩ := List.mem_map.1 hj
      left
      simp only [Option.some.injEq] at hR
      subst hR
      exact hno p ((sorted_spec (fun p : Int × List Nat => p.1) s.upto).1.mem_iff.1 hp) (List.mem_toFinset.1 hxR)
    by_contra hlt
    refine hsub.taken { id := 0, startTime := p.1, walltime := some (Kao.maxTime - p.1), resSet := some p.2.toFinset }
      (List.mem_map.2 ⟨p, (sorted_spec (fun p : Int × List Nat => p.1) s.upto).1.mem_iff.2 hp, rfl⟩) _ _ rfl rfl x (List.mem_toFinset.2 hxp) t ?_ ?_ hx
    · show p.1 ≤ t
      omega
    · show t < p.1 + (Kao.maxTime - p.1)
      omega

/-! ## The Gantt at the beginning of the round -/

theorem nodup_inj {α β : Type} {f : α → β} {l : List α} (h : (l.map f).Nodup) {a b : α} (ha : a ∈ l) (hb : b ∈ l) (e : f a = f b) : a = b :=
  List.inj_on_of_nodup_map h ha hb e

/-- The tables after the first part. -/
def started (s : RS) (db : DB) : DB := saveAssigns s { db with preds := [], gres := [] } (current s { db with preds := [], gres := [] })

theorem flush_simple {db : DB} (h : Simple db) : flush (reservationsToKeep db) db = { db with preds := [], gres := [] } := by
  have : reservationsToKeep db = [] := by
    unfold reservationsToKeep
    rw [List.map_eq_nil_iff, List.filter_eq_nil_iff]
    intro m hm
    rw [decide_eq_true_eq]
    rintro ⟨_, _, h3⟩
    rw [List.any_eq_true] at h3
    obtain ⟨j, hj, h4⟩ := h3
    simp only [Bool.and_eq_true, beq_iff_eq] at h4
    exact (h j hj).1 h4.2
  rw [this]
  rfl

theorem started_preds {s : RS} {db : DB} {p : Nat × Int} (h : p ∈ (started s db).preds) : ∃ j ∈ db.jobs, Occupies j ∧ p = (j.mold, j.start) := by
  unfold started saveAssigns current at h
  simp only [List.nil_append, List.mem_map, List.mem_filter] at h
  obtain ⟨e, ⟨⟨j, ⟨hj, hs⟩, rfl⟩, _⟩, rfl⟩ := h
  rw [Bool.and_eq_true] at hs
  exact ⟨j, hj, (occupies_iff j).1 hs.1, rfl⟩

theorem started_gres {s : RS} {db : DB} {g : Nat × Nat} (h : g ∈ (started s db).gres) :
    ∃ j ∈ db.jobs, Occupies j ∧ g.1 = j.mold ∧ ∃ r, Holds db j r ∧ g.2 = s.o2i (s.i2o r) := by
  unfold started saveAssigns current at h
  simp only [List.nil_append, List.mem_map, List.mem_filter, List.mem_flatMap] at h
  obtain ⟨e, ⟨⟨j, ⟨hj, hs⟩, rfl⟩, _⟩, k, hk, rfl⟩ := h
  rw [Bool.and_eq_true] at hs
  refine ⟨j, hj, (occupies_iff j).1 hs.1, rfl, ?_⟩
  dsimp only at hk
  rw [List.mem_eraseDups, List.mem_map] at hk
  obtain ⟨a, ha, rfl⟩ := hk
  obtain ⟨h1, h2⟩ := List.mem_filter.1 ha
  rw [beq_iff_eq] at h2
  exact ⟨a.2, by unfold Holds; rw [← h2]; exact h1, rfl⟩

/-- A job that holds a usable resource is in the Gantt with it. -/
theorem started_mem {s : RS} {db : DB} {j : LJob} {k : Nat} (hj : j ∈ db.jobs) (ho : Occupies j) (hst : 0 ≤ j.start) (hinv : s.i2o (s.o2i k) = k)
    (hh : Holds db j (s.o2i k)) : (j.mold, j.start) ∈ (started s db).preds ∧ (j.mold, s.o2i k) ∈ (started s db).gres := by
  have hcur : (⟨j, j.mold, j.start, 0, ((db.assigned.filter (fun a => a.1 == j.mold)).map (fun a => s.i2o a.2)).eraseDups⟩ : EJob) ∈
      (current s { db with preds := [], gres := [] }).filter (fun e => decide (-1 < e.start)) := by
    rw [List.mem_filter]
    refine ⟨?_, by simp only [decide_eq_true_eq]; omega⟩
    unfold current
    refine List.mem_map.2 ⟨j, List.mem_filter.2 ⟨hj, ?_⟩, rfl⟩
    rw [Bool.and_eq_true]
    exact ⟨(occupies_iff j).2 ho, List.any_eq_true.2 ⟨_, hh, by simp⟩⟩
  unfold started saveAssigns
  simp only [List.nil_append]
  refine ⟨List.mem_map.2 ⟨_, hcur, rfl⟩, List.mem_flatMap.2 ⟨_, hcur, List.mem_map.2 ⟨k, ?_, rfl⟩⟩⟩
  dsimp only
  rw [List.mem_eraseDups, List.mem_map]
  exact ⟨(j.mold, s.o2i k), List.mem_filter.2 ⟨hh, by simp⟩, hinv⟩

/-- The rows of the Gantt: each is about a job that occupies resources, with its own start and moldable. -/
theorem started_row {s : RS} {db : DB} (hs : Sound db) {r : Row} (h : r ∈ join (started s db)) :
    r.job ∈ db.jobs ∧ Occupies r.job ∧ r.mid = r.job.mold ∧ r.start = r.job.start ∧ (∃ m ∈ db.molds, m.id = r.job.mold ∧ m.walltime = r.walltime) ∧
      ∃ i, Holds db r.job i ∧ r.rid = s.o2i (s.i2o i) := by
  obtain ⟨h1, ⟨m, hm, hm1, hm2, hm3⟩, h3, h4⟩ := (mem_join _ r).1 h
  obtain ⟨j, hj, ho, e⟩ := started_preds h1
  simp only [Prod.mk.injEq] at e
  obtain ⟨m', hm', e1, e2⟩ := hs.own j hj ho
  have hmm : m = m' := nodup_inj hs.molds hm hm' (by rw [hm1, e.1, e1])
  have hjj : r.job = j := nodup_inj hs.jobs h3 hj (by rw [← hm2, hmm, e2])
  rw [hjj]
  obtain ⟨j2, hj2, ho2, q1, i, q2, q3⟩ := started_gres h4
  have hj3 : j2 = j := by
    obtain ⟨m2, hm2', f1, f2⟩ := hs.own j2 hj2 ho2
    have q1' : r.mid = j2.mold := q1
    have : m2 = m' := nodup_inj hs.molds hm2' hm' (by rw [f1, ← q1', e.1, e1])
    exact nodup_inj hs.jobs hj2 hj (by rw [← f2, this, e2])
  rw [hj3] at q2
  exact ⟨hj, ho, e.1, e.2, ⟨m, hm, by rw [hm1, e.1], hm3⟩, i, q2, q3⟩


/-- The jobs of the Gantt given to the timelines are in order, can be placed, and are neither containers nor inside one. -/
structure Prev (js : List Kao.Job) : Prop where
  order : js.Pairwise (fun a b => a.startTime ≤ b.startTime)
  placed : ∀ j ∈ js, Kao.Placed j
  flat : ∀ j ∈ js, j.types.lookup "container" = none ∧ j.types.lookup "inner" = none

/-- The jobs of the Gantt come from the jobs that occupy resources. -/
def Who (s : RS) (sec : Int) (db : DB) (js : List Kao.Job) : Prop :=
  ∀ a ∈ js, ∃ j ∈ db.jobs, Occupies j ∧ (a.hasType "besteffort" = true ↔ BestEffort j) ∧ a.startTime = j.start ∧
    (∃ d ∈ db.molds, d.id = j.mold ∧ a.walltime = some (d.walltime + extra sec j)) ∧
    ∃ R, a.resSet = some R ∧ ∀ x ∈ R, ∃ i, Holds db j i ∧ x = s.i2o (s.o2i (s.i2o i))

/-- What is known after the first part: the timeline `ss0`, the jobs of the Gantt. -/
structure Begun (s : RS) (sec now : Int) (db : DB) (sets : List (String × Kao.SlotSet)) (sched : List EJob) (js : List Kao.Job) (ss0 : Kao.SlotSet) : Prop where
  set_ : sets.lookup "default" = some ss0
  ok : Kao.SetOk ss0
  begin_ : ss0.begin_ = now
  alive : ∀ t x, Free ss0 t x → x ∈ s.roids
  avail : ∀ t x, Free ss0 t x → t < Kao.maxTime → ∀ p ∈ s.upto, x ∈ p.2 → t < p.1
  busy : ∀ j ∈ db.jobs, Occupies j → ∀ k ∈ s.roids, Holds db j (s.o2i k) →
    (BestEffort j → HeldByBestEffort sched k j) ∧ 
      (¬ BestEffort j → ∀ d ∈ db.molds, d.id = j.mold → ∀ t, now ≤ t → t < j.start + (d.walltime + extra sec j) → ¬ Free ss0 t k)
  cache : ss0.cache = []
  end_ : ss0.end_ = Kao.maxTime
  low : ∀ t x, x ∈ s.roids → now ≤ t → t ≤ Kao.maxTime → (∀ p ∈ s.upto, x ∈ p.2 → t < p.1) →
    (∀ a ∈ js, a.hasType "besteffort" = false → ∀ w R, a.walltime = some w → a.resSet = some R → x ∈ R → t < a.startTime ∨ a.startTime + w < t) → Free ss0 t x

theorem init_spec {ctx ctx' : Kao.Ctx} {s : RS} {sec now : Int} {db db' : DB} {sets : List (String × Kao.SlotSet)} {sched : List EJob} {js : List Kao.Job}
    (hs : Sound db) (ht : OnTime sec now db) (hsi : Simple db) (hn : Numbered s db) (hcal : ctx.cal = none) (hnow : now ≤ Kao.maxTime)
    (h : init ctx s sec now db = some (db', ctx', sets, sched, js)) :
    db' = started s db ∧ ctx' = ctx ∧ Prev js ∧ Who s sec db js ∧ ∃ ss0, Begun s sec now db sets sched js ss0 := by
  unfold init at h
  dsimp only at h
  rw [flush_simple hsi] at h
  change (match initial ctx s now with
    | none => none
    | some (ctx', ss) =>
      match (extract s sec (sorted (join (started s db)))).mapM toJob with
      | none => none
      | some js =>
        if js = [] then some (started s db, ctx', [("default", ss)], extract s sec (sorted (join (started s db))), js)
        else (Kao.setPrev ctx' [("default", ss)] js sec now true false).map (fun sets =>
          (started s db, ctx', sets, extract s sec (sorted (join (started s db))), js))) = _ at h
  cases hi : initial ctx s now with
  | none => rw [hi] at h; simp at h
  | some y =>
    obtain ⟨c1, ss⟩ := y
    rw [hi] at h
    dsimp only at h
    obtain ⟨rfl, i2, i3, i4, i5, i6, i8, i7⟩ := initial_spec hcal hnow (numbered_upto hn) hi
    -- the rows
    have hrow : ∀ r ∈ sorted (join (started s db)), r.job ∈ db.jobs ∧ Occupies r.job ∧ r.mid = r.job.mold ∧ r.start = r.job.start ∧
        (∃ m ∈ db.molds, m.id = r.job.mold ∧ m.walltime = r.walltime) ∧ ∃ i, Holds db r.job i ∧ r.rid = s.o2i (s.i2o i) :=
      fun r hr => started_row hs ((sorted_mem _ r).1 hr)
    have hlex := sorted_lex (join (started s db))
    have hgr : Grouped (sorted (join (started s db))) := grouped_of_lex _ (by
      intro a ha b hb e
      rw [nodup_inj hs.jobs (hrow a ha).1 (hrow b hb).1 e]) hlex
    have hex := extract_grouped' s sec _ hgr ((numbered_susp hn).imp id (fun hss r hr => hss _ (hrow r hr).1))
    rw [hex] at h
    cases hm : ((runs (sorted (join (started s db)))).map (mkJob s sec)).mapM toJob with
    | none => rw [hm] at h; simp at h
    | some js1 =>
      rw [hm] at h
      dsimp only at h
      obtain ⟨m1, m2, m3⟩ := mapM_toJob _ _ hm
      have hprev : Prev js1 := by
        refine ⟨m3 ?_, ?_, ?_⟩
        · rw [List.pairwise_map]
          have hsl := runs_sublist (sorted (join (started s db)))
          have hp2 := hlex.sublist hsl
          rw [List.pairwise_map] at hp2
          refine hp2.imp_of_mem ?_
          intro a b ha hb hab
          have r1 := (hrow a.1 (runs_sound _ a ha).1).2.2.2.1
          have r2 := (hrow b.1 (runs_sound _ b hb).1).2.2.2.1
          show a.1.start ≤ b.1.start
          omega
        · intro j hj
          obtain ⟨e, he, he2⟩ := m1 j hj
          obtain ⟨x, hx, rfl⟩ := List.mem_map.1 he
          obtain ⟨g1, g2, g3, g4, ⟨m, hm, g5, g6⟩, _⟩ := hrow x.1 (runs_sound _ x hx).1
          obtain ⟨t1, t2, t3, _⟩ := toJob_spec he2
          refine ⟨_, _, t2, t3, ?_⟩
          have := ((ht _ g1 g2).2.2 m hm g5).1
          unfold extra at this
          show 1 ≤ x.1.walltime + sec + _
          rw [← g6]
          omega
        · intro j hj
          obtain ⟨e, he, he2⟩ := m1 j hj
          obtain ⟨x, hx, rfl⟩ := List.mem_map.1 he
          obtain ⟨g1, _⟩ := hrow x.1 (runs_sound _ x hx).1
          obtain ⟨_, _, _, t4⟩ := toJob_spec he2
          obtain ⟨_, s1, s2⟩ := hsi _ g1
          have c1 := t4 (txt "container")
          have c2 := t4 (txt "inner")
          change j.types.lookup (String.ofList "container".toList) = Option.map String.ofList ((tjob x.1.job).types.lookup (txt "container")) at c1
          change j.types.lookup (String.ofList "inner".toList) = Option.map String.ofList ((tjob x.1.job).types.lookup (txt "inner")) at c2
          rw [s1, String.ofList_toList] at c1
          rw [s2, String.ofList_toList] at c2
          exact ⟨c1, c2⟩
      have hbetype : ∀ (a : Kao.Job) (e : EJob), toJob e = some a → (a.hasType "besteffort" = true ↔ BestEffort e.job) := by
        intro a e ha2
        obtain ⟨_, _, _, t4⟩ := toJob_spec ha2
        have c1 := t4 (txt "besteffort")
        change a.types.lookup (String.ofList "besteffort".toList) = Option.map String.ofList ((tjob e.job).types.lookup (txt "besteffort")) at c1
        rw [String.ofList_toList] at c1
        unfold BestEffort Kao.Job.hasType
        rw [c1, Option.isSome_map]
      have hwho : Who s sec db js1 := by
        intro a ha
        obtain ⟨e, he, he2⟩ := m1 a ha
        have hty := hbetype a e he2
        obtain ⟨x, hx, rfl⟩ := List.mem_map.1 he
        obtain ⟨g1, g2, g3, g4, ⟨m, hm, g5, g6⟩, _⟩ := hrow x.1 (runs_sound _ x hx).1
        obtain ⟨t1, t2, t3, _⟩ := toJob_spec he2
        refine ⟨x.1.job, g1, g2, hty, t1.trans g4, ⟨m, hm, g5, ?_⟩, _, t3, ?_⟩
        · rw [t2]
          show some (x.1.walltime + sec + (if x.1.job.suspended then x.1.job.suspSum else 0)) = _
          unfold extra
          rw [g6]
          congr 1
          omega
        · intro k hk
          rw [List.mem_toFinset] at hk
          change k ∈ x.2.map s.i2o at hk
          obtain ⟨i, hi, rfl⟩ := List.mem_map.1 hk
          obtain ⟨row, hr1, hr2, rfl⟩ := (runs_sound _ x hx).2.2 i hi
          obtain ⟨f1, _, _, _, _, i2, f2, f3⟩ := hrow row hr1
          rw [nodup_inj hs.jobs f1 g1 hr2] at f2
          exact ⟨i2, f2, by rw [f3]⟩
      -- a job that holds a usable resource is there
      have hthere : ∀ j ∈ db.jobs, Occupies j → ∀ k ∈ s.roids, Holds db j (s.o2i k) →
          ∃ e ∈ (runs (sorted (join (started s db)))).map (mkJob s sec), e.job = j ∧ e.start = j.start ∧ k ∈ e.res ∧
            ∃ m ∈ db.molds, m.id = j.mold ∧ e.walltime = m.walltime + extra sec j := by
        intro j hj ho k hk hh
        have hkk := numbered_inverse hn k hk
        obtain ⟨p1, p2⟩ := started_mem hj ho (ht j hj ho).1 hkk hh
        obtain ⟨m, hm, e1, e2⟩ := hs.own j hj ho
        have hr : (⟨j, j.mold, j.start, m.walltime, s.o2i k⟩ : Row) ∈ sorted (join (started s db)) := by
          rw [sorted_mem, mem_join]
          exact ⟨p1, ⟨m, hm, e1, e2, rfl⟩, hj, p2⟩
        obtain ⟨x, hx, x1, x2⟩ := runs_complete _ _ hr
        obtain ⟨g1, g2, g3, g4, ⟨m', hm', g5, g6⟩, _⟩ := hrow x.1 (runs_sound _ x hx).1
        have hxj : x.1.job = j := nodup_inj hs.jobs g1 hj x1
        refine ⟨mkJob s sec x, List.mem_map.2 ⟨x, hx, rfl⟩, hxj, by show x.1.start = _; rw [g4, hxj], ?_, m', hm', by rw [g5, hxj], ?_⟩
        · show k ∈ x.2.map s.i2o
          exact List.mem_map.2 ⟨_, x2, hkk⟩
        · show x.1.walltime + sec + (if x.1.job.suspended then x.1.job.suspSum else 0) = _
          unfold extra
          rw [g6, hxj]
          omega
      have hbe : ∀ j ∈ db.jobs, Occupies j → ∀ k ∈ s.roids, Holds db j (s.o2i k) → BestEffort j →
          HeldByBestEffort ((runs (sorted (join (started s db)))).map (mkJob s sec)) k j := by
        intro j hj ho k hk hh hb
        obtain ⟨e, he, e1, _, e3, _⟩ := hthere j hj ho k hk hh
        exact ⟨e, he, e1, hb, e3⟩
      split at h
      · rename_i hnil
        simp only [Option.some.injEq, Prod.mk.injEq] at h
        obtain ⟨rfl, rfl, rfl, rfl, rfl⟩ := h
        refine ⟨rfl, rfl, hprev, hwho, ss, by simp, i2, i3, i4, i5, fun j hj ho k hk hh => ⟨hbe j hj ho k hk hh, fun _ _ _ _ _ _ _ => ?_⟩, i6, i8, fun t x h1 h2 h3 h4 _ => i7 t x h1 h2 h3 h4⟩
        obtain ⟨e, he, _⟩ := hthere j hj ho k hk hh
        obtain ⟨a, ha, _⟩ := m2 e he
        rw [hnil] at ha
        simp at ha
      · simp only [Option.map_eq_some_iff, Prod.mk.injEq] at h
        obtain ⟨sets1, h1, rfl, rfl, rfl, rfl, rfl⟩ := h
        obtain ⟨ss', l1, l2⟩ := Kao.setPrev_sub hprev.flat i2.1 hprev.order hprev.placed (by simp) h1
        refine ⟨rfl, rfl, hprev, hwho, ss', l1, l2.setOk i2, l2.begin_.trans i3, fun t x hx => i4 t x (l2.free t x hx), fun t x hx => i5 t x (l2.free t x hx), fun j hj ho k hk hh =>
          ⟨hbe j hj ho k hk hh, fun hnb d hd hdm t htn htl => ?_⟩, l2.cache.trans i6, l2.end_.trans i8, fun t x h1 h2 h3 h4 h5 => l2.back t x (i7 t x h1 h2 h3 h4) (fun a ha => ?_)⟩
        rotate_left
        · obtain ⟨ha1, ha2⟩ := List.mem_filter.1 ha
          refine h5 a ha1 ?_
          unfold Kao.kept at ha2
          simpa using ha2
        obtain ⟨e, he, e1, e2, e3, m, hm, e4, e5⟩ := hthere j hj ho k hk hh
        obtain ⟨a, ha, ha2⟩ := m2 e he
        obtain ⟨t1, t2, t3, t4⟩ := toJob_spec ha2
        have hon := ht j hj ho
        have hdm' : d = m := nodup_inj hs.molds hd hm (by rw [hdm, e4])
        subst hdm'
        refine l2.taken a (List.mem_filter.2 ⟨ha, ?_⟩) _ _ t2 t3 k (List.mem_toFinset.2 e3) t (by rw [t1, e2]; exact hon.2.1.trans htn) (by rw [t1, e2, e5]; exact htl)
        have c1 := t4 (txt "besteffort")
        change a.types.lookup (String.ofList "besteffort".toList) = Option.map String.ofList ((tjob e.job).types.lookup (txt "besteffort")) at c1
        rw [String.ofList_toList, e1] at c1
        unfold BestEffort at hnb
        unfold Kao.kept Kao.Job.hasType
        rw [c1]
        cases hl : (tjob j).types.lookup (txt "besteffort") with
        | none => rfl
        | some v => exact absurd (by rw [hl]; rfl) hnb

/-! ## The groups of queues -/

/-- What is known during the groups: `Q` are the jobs placed so far, `done` the identifiers of the jobs treated. -/
structure Going (s : RS) (now : Int) (ctx : Kao.Ctx) (db : DB) (ss0 : Kao.SlotSet) (W : List Kao.Job) (done : List Nat) (Q : List EJob)
    (x : DB × Kao.Ctx × List (String × Kao.SlotSet)) : Prop where
  jobs : x.1.jobs = db.jobs
  molds : x.1.molds = db.molds
  assigned : x.1.assigned = db.assigned
  preds : x.1.preds = (started s db).preds ++ Q.map (fun e => (e.mid, e.start))
  gres : x.1.gres = (started s db).gres ++ Q.flatMap (fun e => e.res.map (fun k => (e.mid, s.o2i k)))
  ctx_ : x.2.1 = ctx
  set_ : ∃ ss, x.2.2.lookup "default" = some ss ∧ Kao.SetOk ss ∧ ss.begin_ = now ∧ (∀ t k, Free ss t k → Free ss0 t k) ∧
    ∀ e ∈ Q, ∀ t, e.start ≤ t → t < e.start + e.walltime → ∀ k ∈ e.res, ¬ Free ss t k
  free : ∀ e ∈ Q, now ≤ e.start ∧ (e.start ≤ now → ∀ k ∈ e.res, Free ss0 now k) ∧ ∃ m ∈ db.molds, m.id = e.mid ∧ m.job = e.job.id
  pair : Q.Pairwise (fun a b => a.job.id ≠ b.job.id ∧ ∀ t, a.start ≤ t → t < a.start + a.walltime → b.start ≤ t → t < b.start + b.walltime → ∀ k ∈ a.res, k ∉ b.res)
  done_ : ∀ e ∈ Q, e.job.id ∈ done
  ans : ∀ e ∈ Q, ∃ w ∈ W, w.id = e.job.id ∧ ∃ m ∈ w.mlds, m.id = e.mid ∧ (0 < m.walltime ∧ e.walltime = m.walltime) ∧ ∃ R, (∀ k, k ∈ e.res ↔ k ∈ R) ∧ Kao.Answered ss0 (hyOf s) m e.start R

theorem mem_procList (R : ProcSet) (k : Nat) : k ∈ procList R ↔ k ∈ R := by
  unfold procList
  rw [List.mem_filter, List.mem_range, decide_eq_true_eq]
  refine ⟨fun h => h.2, fun h => ⟨?_, h⟩⟩
  have : id k ≤ R.sup id := Finset.le_sup h
  exact Nat.lt_succ_of_le this

theorem waitingResv_simple {s : RS} {sec : Int} {q : String} {db db' : DB} (hsi : Simple db) (hj : db'.jobs = db.jobs) : waitingResv s sec q db' = [] := by
  have : (join db').filter (fun r => r.job.queue == q && r.job.reservation == "Scheduled" && r.job.state == "Waiting") = [] := by
    rw [List.filter_eq_nil_iff]
    intro r hr h
    simp only [Bool.and_eq_true, beq_iff_eq] at h
    have := ((mem_join _ r).1 hr).2.2.1
    rw [hj] at this
    exact (hsi _ this).1 h.1.2
  unfold waitingResv
  rw [this]
  rfl

theorem groupResv_simple {ctx : Kao.Ctx} {s : RS} {sec timeout now : Int} {resv : List (String × List Kao.Job)} {db : DB} (hsi : Simple db) :
    ∀ (qs : List String) (x : DB × List (String × Kao.SlotSet)), (∀ q ∈ qs, (resv.lookup q).getD [] = []) → x.1.jobs = db.jobs →
    groupResv ctx s sec timeout now resv qs x = some x
  | [], x, _, _ => rfl
  | q :: qs, x, h, hj => by
    unfold groupResv queueResv
    rw [waitingResv_simple hsi hj, h q (by simp)]
    simp only [waitingARs, if_true, Option.bind_some]
    exact groupResv_simple hsi qs x (fun q hq => h q (List.mem_cons_of_mem _ hq)) hj

theorem job?_of_mem {st : Kao.Sched} (hn : (st.jobs.map (·.id)).Nodup) {a : Kao.Job} (ha : a ∈ st.jobs) : st.job? a.id = some a := by
  unfold Kao.Sched.job?
  cases h : st.jobs.find? (fun j => j.id == a.id) with
  | none =>
    rw [List.find?_eq_none] at h
    exact absurd (by simp) (h a ha)
  | some b =>
    have h1 := List.mem_of_find?_eq_some h
    have h2 : b.id = a.id := by have := List.find?_some h; simpa using this
    rw [nodup_inj hn h1 ha h2]

theorem toE_spec {db : DB} {a : Kao.Job} {e : EJob} (h : toE db a = some e) :
    e.job.id = a.id ∧ e.mid = a.moldableId.toNat ∧ e.start = a.startTime ∧ e.res = procList (a.resSet.getD ∅) ∧ e.walltime = a.walltime.getD 0 := by
  unfold toE at h
  simp only [Option.map_eq_some_iff] at h
  obtain ⟨l, hl, rfl⟩ := h
  refine ⟨?_, rfl, rfl, rfl, rfl⟩
  have := List.find?_some hl
  simpa using this

theorem group_step {s : RS} {sec timeout now : Int} {ctx : Kao.Ctx} {db : DB} {ss0 : Kao.SlotSet} {W : List Kao.Job} {done : List Nat} {Q : List EJob} {js : List Kao.Job}
    {g : Grp} {x x' : DB × Kao.Ctx × List (String × Kao.SlotSet)} (hbeg : ss0.begin_ = now) (hinv : Going s now ctx db ss0 W done Q x) (hp : Prev js) (hcal : ctx.cal = none)
    (hsi : Simple db) (hg : Given [g] db) (hW : ∀ w ∈ g.waiting, w ∈ W) (hnew : ∀ w ∈ g.waiting, w.id ∉ done) (h : group s sec timeout now js g x = some x') :
    ∃ Q', Going s now ctx db ss0 W (g.waiting.map (·.id) ++ done) Q' x' := by
  obtain ⟨k1, k2, k3, k4, k5, k6, ⟨ss, k7, k8, k9, k10, k11⟩, k12, k13, k14, k15⟩ := hinv
  unfold group at h
  -- the running best-effort jobs
  cases hb : (if g.names = ["besteffort"] then Kao.setPrev x.2.1 x.2.2 js sec now false true else some x.2.2) with
  | none => rw [hb] at h; simp at h
  | some sets =>
    rw [hb] at h
    dsimp only at h
    have hset : ∃ s1, sets.lookup "default" = some s1 ∧ Kao.SetOk s1 ∧ s1.begin_ = now ∧ (∀ t k, Free s1 t k → Free ss t k) := by
      split at hb
      · obtain ⟨s1, e1, e2⟩ := Kao.setPrev_sub hp.flat k8.1 hp.order hp.placed k7 hb
        exact ⟨s1, e1, e2.setOk k8, e2.begin_.trans k9, e2.free⟩
      · simp only [Option.some.injEq] at hb
        subst hb
        exact ⟨ss, k7, k8, k9, fun _ _ h => h⟩
    obtain ⟨s1, b1, b2, b3, b4⟩ := hset
    have hwn : (g.waiting.map (·.id)).Nodup := by have := hg.once; simpa using this
    -- the pass
    cases hsch : Kao.schedule (hyOf s) sec (g.waiting.map (·.id)) ⟨x.2.1, sets, g.waiting⟩ with
    | none => rw [hsch] at h; simp at h
    | some st =>
      rw [hsch] at h
      dsimp only at h
      have hinit : Kao.PassInv "default" s1 [] ⟨x.2.1, sets, g.waiting⟩ :=
        ⟨⟨s1, b1, b2, rfl, rfl, fun _ _ h => h, by simp⟩, by simp⟩
      have hfr : ∀ jid ∈ g.waiting.map (·.id), ∀ job, (⟨x.2.1, sets, g.waiting⟩ : Kao.Sched).job? jid = some job →
          Kao.Fresh "default" job ∧ job.setName = "default" := by
        intro jid _ job hj
        have hm : job ∈ g.waiting := List.mem_of_find?_eq_some hj
        obtain ⟨p1, p2, p3, p4, p5⟩ := hg.plain g (by simp) job hm
        refine ⟨⟨⟨p1, p2⟩, p3, ?_⟩, ?_⟩
        · rintro ⟨v, hv, _⟩
          rw [p4] at hv
          simp at hv
        · unfold Kao.Job.setName; rw [p5]; rfl
      obtain ⟨o1, o2, ⟨ids', o3, o4⟩, _, o5⟩ := Kao.schedule_outcome _ [] _ st hinit hwn (by simp) hfr (by rw [k6]; exact hcal) hsch
      dsimp only at o1 o2
      have hstn : (st.jobs.map (·.id)).Nodup := by rw [o2]; exact hwn
      -- each job after the pass
      have hout : ∀ a ∈ st.jobs, ∃ w ∈ g.waiting, w.id = a.id ∧ a.setName = "default" ∧ Kao.Outcome s1 (hyOf s) w.mlds a := by
        intro a ha
        have hid : a.id ∈ g.waiting.map (·.id) := by rw [← o2]; exact List.mem_map.2 ⟨a, ha, rfl⟩
        obtain ⟨w, hw, q1, q2, _, q3⟩ := o5 a.id hid a (job?_of_mem hstn ha)
        have hm : w ∈ g.waiting := List.mem_of_find?_eq_some hw
        refine ⟨w, hm, Kao.job?_id hw, ?_, q3⟩
        rw [Kao.setName_congr q1]
        exact (hfr a.id hid w hw).2
      obtain ⟨s2, c1, c2, c3, c4, c5, c6⟩ := o4.set_
      -- the jobs placed
      let N := (st.jobs.filterMap (toE x.1)).filter (fun e => decide (-1 < e.start))
      have hN : ∀ e ∈ N, ∃ a ∈ st.jobs, toE x.1 a = some e ∧ ∃ w ∈ g.waiting, w.id = e.job.id ∧ ∃ m ∈ w.mlds, ∃ R, e.mid = m.id ∧
          a.walltime = some m.walltime ∧ 0 < m.walltime ∧ a.resSet = some R ∧ now ≤ e.start ∧ e.start = a.startTime ∧ a.setName = "default" ∧ a.id ∈ ids' ∧
          (∀ k, k ∈ e.res ↔ k ∈ R) ∧ e.walltime = m.walltime ∧ Kao.Answered ss0 (hyOf s) m e.start R := by
        intro e he
        obtain ⟨he1, he2⟩ := List.mem_filter.1 he
        obtain ⟨a, ha, hae⟩ := List.mem_filterMap.1 he1
        obtain ⟨t1, t2, t3, t4, t5⟩ := toE_spec hae
        obtain ⟨w, hw, w1, w2, w3⟩ := hout a ha
        rcases w3 with w3 | ⟨m, hm, R, m1, m2, m3, m4, ⟨u1, u2, u3, A, u4, u5⟩⟩
        · rw [decide_eq_true_eq, t3, w3] at he2
          omega
        · refine ⟨a, ha, hae, w, hw, by rw [t1, w1], m, hm, R, by rw [t2, m1]; rfl, m2, m3, m4, by rw [t3, ← b3]; exact u2, t3, w2, ?_, ?_, ?_⟩
          · rw [o3]
            left
            rw [← o2]
            exact List.mem_map.2 ⟨a, ha, rfl⟩
          · intro k
            rw [t4, m4, Option.getD_some, mem_procList]
          · refine ⟨by rw [t5, m2]; rfl, ?_⟩
            rw [t3]
            exact ⟨u1, by rw [hbeg, ← b3]; exact u2, fun x hx t h1 h2 => k10 t x (b4 t x (u3 x hx t h1 h2)), A, fun x hx t h1 h2 => k10 t x (b4 t x (u4 x hx t h1 h2)), u5⟩
      have hdb : groupResv st.ctx s sec timeout now g.resv g.names (saveAssigns s x.1 (st.jobs.filterMap (toE x.1)), st.sets) =
          some (saveAssigns s x.1 (st.jobs.filterMap (toE x.1)), st.sets) :=
        groupResv_simple hsi _ _ (hg.noResv g (by simp)) k1
      rw [hdb] at h
      simp only [Option.map_some, Option.some.injEq] at h
      subst h
      refine ⟨Q ++ N, k1, k2, k3, ?_, ?_, by rw [o1]; exact k6, ⟨s2, c1, c2, c3.trans b3, fun t k hk => k10 t k (b4 t k (c5 t k hk)), ?_⟩, ?_, ?_, ?_, ?_⟩
      · show x.1.preds ++ _ = _
        rw [k4, List.map_append, List.append_assoc]
      · show x.1.gres ++ _ = _
        rw [k5, List.flatMap_append, List.append_assoc]
      · intro e he t hle hlt k hk hF
        rcases List.mem_append.1 he with he | he
        · exact k11 e he t hle hlt k hk (b4 t k (c5 t k hF))
        · obtain ⟨a, ha, _, w, hw, _, m, hm, R, _, n2, n3, n4, n5, n6, n7, n8, n9, nw, n10⟩ := hN e he
          exact (c6 a.id n8 a (job?_of_mem hstn ha) n7 _ _ n2 n4 k ((n9 k).1 hk) t (by omega) (by omega)).1 hF
      · intro e he
        rcases List.mem_append.1 he with he | he
        · exact k12 e he
        · obtain ⟨a, ha, _, w, hw, n0, m, hm, R, n1, n2, n3, n4, n5, n6, n7, n8, n9, nw, n10⟩ := hN e he
          refine ⟨n5, fun hle k hk => ?_, ?_⟩
          · exact k10 now k (b4 now k (c6 a.id n8 a (job?_of_mem hstn ha) n7 _ _ n2 n4 k ((n9 k).1 hk) now (by omega) (by omega)).2)
          · obtain ⟨d, hd, d1, d2⟩ := hg.molds g (by simp) w hw m hm
            exact ⟨d, hd, by rw [d1, n1], by rw [d2, n0]⟩
      · rw [List.pairwise_append]
        refine ⟨k13, ?_, ?_⟩
        · have hpw : st.jobs.Pairwise (fun a b => a.id ≠ b.id) := List.pairwise_map.1 hstn
          have hpw2 : st.jobs.Pairwise (fun a b => ∀ e, toE x.1 a = some e → ∀ f, toE x.1 b = some f → e ∈ N → f ∈ N →
              e.job.id ≠ f.job.id ∧ ∀ t, e.start ≤ t → t < e.start + e.walltime → f.start ≤ t → t < f.start + f.walltime → ∀ k ∈ e.res, k ∉ f.res) := by
            refine hpw.imp_of_mem ?_
            intro a b ha hb hab e hae f hbf heN hfN
            obtain ⟨t1, t2, t3, t4, t5⟩ := toE_spec hae
            obtain ⟨u1, u2, u3, u4, u5⟩ := toE_spec hbf
            refine ⟨by rw [t1, u1]; exact hab, fun t h1 h2 h3 h4 k hk hk2 => ?_⟩
            obtain ⟨a', ha', q', w, hw, _, m, hm, R, _, n2, n3, n4, n5, n6, n7, n8, n9, nw, n10⟩ := hN e heN
            obtain ⟨b', hb', q2, w', hw', _, m', hm', R', _, p2, p3, p4, p5, p6, p7, p8, p9, pw, p10⟩ := hN f hfN
            have ea : a' = a := nodup_inj hstn ha' ha ((toE_spec q').1.symm.trans t1)
            have eb : b' = b := nodup_inj hstn hb' hb ((toE_spec q2).1.symm.trans u1)
            subst ea; subst eb
            have hdis := o4.pair a'.id n8 b'.id p8 hab a' b' (job?_of_mem hstn ha) (job?_of_mem hstn hb) n7 p7 _ _ _ _ n2 p2 n4 p4 t (by omega) (by omega)
              (by omega) (by omega)
            exact Finset.disjoint_left.1 hdis ((n9 k).1 hk) ((p9 k).1 hk2)
          have h3 : (st.jobs.filterMap (toE x.1)).Pairwise (fun e f => e ∈ N → f ∈ N →
              e.job.id ≠ f.job.id ∧ ∀ t, e.start ≤ t → t < e.start + e.walltime → f.start ≤ t → t < f.start + f.walltime → ∀ k ∈ e.res, k ∉ f.res) := by
            rw [List.pairwise_filterMap]
            exact hpw2.imp (fun h e he f hf => h e he f hf)
          have h4 := h3.sublist (List.filter_sublist (p := fun e => decide (-1 < e.start)))
          exact h4.imp_of_mem (fun ha hb hab => hab ha hb)
        · intro e he f hf
          obtain ⟨a, ha, _, w, hw, n0, m, hm, R, n1, n2, n3, n4, n5, n6, n7, n8, n9, nw, n10⟩ := hN f hf
          refine ⟨fun e1 => hnew w hw (by rw [n0, ← e1]; exact k14 e he), fun t h1 h2 h3 h4 k hk hk2 => ?_⟩
          exact k11 e he t h1 h2 k hk (b4 t k (c6 a.id n8 a (job?_of_mem hstn ha) n7 _ _ n2 n4 k ((n9 k).1 hk2) t (by omega) (by omega)).2)
      · intro e he
        rw [List.mem_append]
        rcases List.mem_append.1 he with he | he
        · exact Or.inr (k14 e he)
        · obtain ⟨a, ha, _, w, hw, n0, _⟩ := hN e he
          exact Or.inl (List.mem_map.2 ⟨w, hw, n0⟩)
      · intro e he
        rcases List.mem_append.1 he with he | he
        · exact k15 e he
        · obtain ⟨a, ha, _, w, hw, n0, m, hm, R, n1, n2, n3, n4, n5, n6, n7, n8, n9, nw, n10⟩ := hN e he
          exact ⟨w, hW w hw, n0, m, hm, n1.symm, ⟨n3, nw⟩, R, n9, n10⟩

theorem given_cons {g : Grp} {gs : List Grp} {db : DB} (h : Given (g :: gs) db) : Given [g] db ∧ Given gs db ∧ ∀ g' ∈ gs, ∀ w' ∈ g'.waiting, ∀ w ∈ g.waiting, w.id ≠ w'.id := by
  obtain ⟨h1, h2, h3, h4, h5⟩ := h
  rw [List.flatMap_cons, List.nodup_append] at h1
  obtain ⟨n1, n2, n3⟩ := h1
  refine ⟨⟨by simpa using n1, ?_, ?_, ?_, ?_⟩, ⟨n2, ?_, ?_, ?_, ?_⟩, ?_⟩
  · intro g' hg'; rw [List.mem_singleton] at hg'; subst hg'; exact h2 g' (by simp)
  · intro g' hg'; rw [List.mem_singleton] at hg'; subst hg'; exact h3 g' (by simp)
  · intro g' hg'; rw [List.mem_singleton] at hg'; subst hg'; exact h4 g' (by simp)
  · intro g' hg'; rw [List.mem_singleton] at hg'; subst hg'; exact h5 g' (by simp)
  · exact fun g' hg' => h2 g' (List.mem_cons_of_mem _ hg')
  · exact fun g' hg' => h3 g' (List.mem_cons_of_mem _ hg')
  · exact fun g' hg' => h4 g' (List.mem_cons_of_mem _ hg')
  · exact fun g' hg' => h5 g' (List.mem_cons_of_mem _ hg')
  · intro g' hg' w' hw' w hw
    exact n3 w.id (List.mem_map.2 ⟨w, hw, rfl⟩) w'.id (List.mem_flatMap.2 ⟨g', hg', List.mem_map.2 ⟨w', hw', rfl⟩⟩)

theorem groups_spec {s : RS} {sec timeout now : Int} {ctx : Kao.Ctx} {db : DB} {ss0 : Kao.SlotSet} {W : List Kao.Job} {js : List Kao.Job} (hbeg : ss0.begin_ = now) (hp : Prev js) (hcal : ctx.cal = none)
    (hsi : Simple db) : ∀ (gs : List Grp) (done : List Nat) (Q : List EJob) (x x' : DB × Kao.Ctx × List (String × Kao.SlotSet)),
    Going s now ctx db ss0 W done Q x → Given gs db → (∀ g ∈ gs, ∀ w ∈ g.waiting, w ∈ W) → (∀ g ∈ gs, ∀ w ∈ g.waiting, w.id ∉ done) → groups s sec timeout now js gs x = some x' →
    ∃ done' Q', Going s now ctx db ss0 W done' Q' x'
  | [], done, Q, x, x', hinv, _, _, _, h => by
    simp only [groups, Option.some.injEq] at h
    subst h
    exact ⟨done, Q, hinv⟩
  | g :: gs, done, Q, x, x', hinv, hg, hW, hnew, h => by
    unfold groups at h
    cases h1 : group s sec timeout now js g x with
    | none => rw [h1] at h; simp at h
    | some x1 =>
      rw [h1, Option.bind_some] at h
      obtain ⟨g1, g2, g3⟩ := given_cons hg
      obtain ⟨Q1, i1⟩ := group_step hbeg hinv hp hcal hsi g1 (hW g (by simp)) (hnew g (by simp)) h1
      refine groups_spec hbeg hp hcal hsi gs _ Q1 x1 x' i1 g2 (fun g' hg' => hW g' (List.mem_cons_of_mem _ hg')) ?_ h
      intro g' hg' w' hw'
      rw [List.mem_append, not_or]
      refine ⟨?_, hnew g' (List.mem_cons_of_mem _ hg') w' hw'⟩
      intro hm
      obtain ⟨w, hw, e⟩ := List.mem_map.1 hm
      exact g3 g' hg' w' hw' w hw e

/-! ## The launching -/

/-- When nothing is to be killed, no resource of a row is held by a best-effort job. -/
theorem toKill_empty {ej : List EJob} {be : List (Nat × LJob)} : ∀ (items : List (Nat × Nat)) (killed out : List Nat), toKill ej be items killed = some out →
    (∀ i ∈ killed, i ∈ out) ∧ ∀ x ∈ items, ∀ b, be.lookup x.1 = some b → b.id ∈ out
  | [], killed, out, h => by
    simp only [toKill, Option.some.injEq] at h
    subst h
    simp
  | (rid, jid) :: items, killed, out, h => by
    unfold toKill at h
    cases hb : be.lookup rid with
    | none =>
      rw [hb] at h
      dsimp only at h
      obtain ⟨g1, g2⟩ := toKill_empty items killed out h
      refine ⟨g1, fun x hx b hl => ?_⟩
      rcases List.mem_cons.1 hx with rfl | hx
      · rw [hb] at hl; simp at hl
      · exact g2 x hx b hl
    | some b =>
      rw [hb] at h
      dsimp only at h
      cases he : ej.find? (fun e => e.job.id = jid) with
      | none => rw [he] at h; simp at h
      | some e =>
        rw [he] at h
        dsimp only at h
        rw [not_timesharing, if_neg (by simp)] at h
        split at h
        · rename_i hk
          obtain ⟨g1, g2⟩ := toKill_empty items killed out h
          refine ⟨g1, fun x hx b' hl => ?_⟩
          rcases List.mem_cons.1 hx with rfl | hx
          · rw [hb, Option.some.injEq] at hl
            subst hl
            exact g1 _ hk
          · exact g2 x hx b' hl
        · split at h
          · simp at h
          · obtain ⟨g1, g2⟩ := toKill_empty items (killed ++ [b.id]) out h
            refine ⟨fun i hi => g1 i (by simp [hi]), fun x hx b' hl => ?_⟩
            rcases List.mem_cons.1 hx with rfl | hx
            · rw [hb, Option.some.injEq] at hl
              subst hl
              exact g1 _ (by simp)
            · exact g2 x hx b' hl

theorem killAll_same : ∀ (l : List Nat) (db : DB), (l.foldl killJob db).jobs = db.jobs ∧ (l.foldl killJob db).assigned = db.assigned
  | [], _ => ⟨rfl, rfl⟩
  | k :: l, db => by
    rw [List.foldl_cons]
    obtain ⟨h1, h2⟩ := killAll_same l (killJob db k)
    exact ⟨h1, h2⟩

theorem pairwise_ids {Q : List EJob} {P : EJob → EJob → Prop} (h : Q.Pairwise (fun a b => a.job.id ≠ b.job.id ∧ P a b)) {a b : EJob} (ha : a ∈ Q) (hb : b ∈ Q)
    (e : a.job.id = b.job.id) : a = b := by
  have : (Q.map (fun x => x.job.id)).Nodup := List.pairwise_map.2 (h.imp (fun h => h.1))
  exact nodup_inj this ha hb e

/-- Two jobs of the Gantt are never at the same time on the same resource. -/
theorem pairwise_disjoint {Q : List EJob}
    (h : Q.Pairwise (fun a b => a.job.id ≠ b.job.id ∧ ∀ t, a.start ≤ t → t < a.start + a.walltime → b.start ≤ t → t < b.start + b.walltime → ∀ k ∈ a.res, k ∉ b.res))
    {a b : EJob} (ha : a ∈ Q) (hb : b ∈ Q) (e : a.job.id ≠ b.job.id) {t : Int} (h1 : a.start ≤ t) (h2 : t < a.start + a.walltime) (h3 : b.start ≤ t)
    (h4 : t < b.start + b.walltime) : ∀ k ∈ a.res, k ∉ b.res := by
  induction Q with
  | nil => simp at ha
  | cons c Q ih =>
    have hp1 := List.pairwise_cons.1 h
    rcases List.mem_cons.1 ha with rfl | ha'
    · rcases List.mem_cons.1 hb with rfl | hb'
      · exact absurd rfl e
      · exact (hp1.1 b hb').2 t h1 h2 h3 h4
    · rcases List.mem_cons.1 hb with rfl | hb'
      · intro k hk hk2
        exact (hp1.1 a ha').2 t h3 h4 h1 h2 k hk2 hk
      · exact ih hp1.2 ha' hb'

/-- The rows of the query of the jobs to launch. -/
def dueRows (cf : Conf) (ord : List Row → List Row) (now : Int) (db2 : DB) : List Row := ord ((join db2).filter (toLaunchRow (now + cf.kill)))

/-- What is known of a job that is going to be launched: `q0` is its placement. -/
structure Due (s : RS) (now : Int) (db db2 : DB) (rows : List Row) (e q0 : EJob) : Prop where
  mid : q0.mid = e.mid
  id_ : q0.job.id = e.job.id
  start : q0.start ≤ now
  row : ∃ j ∈ db.jobs, j.id = e.job.id ∧ j.state = "Waiting"
  mold : ∃ m ∈ db.molds, m.id = e.mid ∧ m.job = e.job.id
  res : ∀ r, (e.mid, r) ∈ db2.gres → ∃ k ∈ q0.res, r = s.o2i k ∧ ∃ row ∈ rows, row.job.id = e.job.id ∧ row.rid = r
  back : ∀ k ∈ q0.res, (e.mid, s.o2i k) ∈ db2.gres

/-- The parts of a regular round. -/
theorem round_facts {cf : Conf} {ctx : Kao.Ctx} {s : RS} {ord : List Row → List Row} {gs : List Grp} {now : Int} {db db' : DB} {code : Int}
    (hord : ∀ l, (ord l).Perm l) (hr : Regular cf ctx s gs now db) (h : round cf ctx s ord gs now db = some (db', code)) :
    ∃ db2 c2 sets sets2 sched js ss0 done Q, Begun s cf.sec now db sets sched js ss0 ∧
      (Prev js ∧ Who s cf.sec db js ∧ groups s cf.sec cf.timeout now js gs (started s db, ctx, sets) = some (db2, c2, sets2)) ∧
      Going s now ctx db ss0 (gs.flatMap (·.waiting)) done Q (db2, c2, sets2) ∧
      (∀ r, r ∈ dueRows cf ord now db2 ↔ r ∈ join db2 ∧ r.start ≤ now + cf.kill ∧ r.job.state = "Waiting") ∧
      ((code = 0 ∧ toKill (extract s cf.sec (dueRows cf ord now db2)) (beMap sched) (ridMap s (dueRows cf ord now db2)) [] = some [] ∧
        db' = ((extract s cf.sec (dueRows cf ord now db2)).filter (ready s now)).foldl (launchOne now) db2 ∧
        ∀ e ∈ (extract s cf.sec (dueRows cf ord now db2)).filter (ready s now), ∃ q0 ∈ Q, Due s now db db2 (dueRows cf ord now db2) e q0) ∨
      (code = 2 ∧ ∃ k ks, db' = (k :: ks).foldl killJob db2)) := by
  obtain ⟨hs, ht, hsi, hg, hn, hcal, hnow⟩ := hr
  unfold round at h
  cases hi : init ctx s cf.sec now db with
  | none => rw [hi] at h; simp at h
  | some y =>
    obtain ⟨db1, c1, sets, sched, js⟩ := y
    rw [hi] at h
    dsimp only at h
    obtain ⟨rfl, rfl, hp, hwho, ss0, hb⟩ := init_spec hs ht hsi hn hcal hnow.2 hi
    cases hgr : groups s cf.sec cf.timeout now js gs (started s db, c1, sets) with
    | none => rw [hgr] at h; simp at h
    | some z =>
      obtain ⟨db2, c2, sets2⟩ := z
      rw [hgr] at h
      dsimp only at h
      split at h
      · simp at h
      have h0 : Going s now c1 db ss0 (gs.flatMap (·.waiting)) [] [] (started s db, c1, sets) :=
        ⟨rfl, rfl, rfl, by simp, by simp, rfl, ⟨ss0, hb.set_, hb.ok, hb.begin_, fun _ _ h => h, by simp⟩, by simp, List.Pairwise.nil, by simp, by simp⟩
      obtain ⟨done, Q, q⟩ := groups_spec hb.begin_ hp hcal hsi gs [] [] _ _ h0 hg (fun g hg w hw => List.mem_flatMap.2 ⟨g, hg, hw⟩) (by simp) hgr
      have qjobs : db2.jobs = db.jobs := q.jobs
      have qmolds : db2.molds = db.molds := q.molds
      have qass : db2.assigned = db.assigned := q.assigned
      have qpreds : db2.preds = (started s db).preds ++ Q.map (fun e => (e.mid, e.start)) := q.preds
      have qgres : db2.gres = (started s db).gres ++ Q.flatMap (fun e => e.res.map (fun k => (e.mid, s.o2i k))) := q.gres
      -- the rows of the query
      have hrows : ∀ r, r ∈ dueRows cf ord now db2 ↔ r ∈ join db2 ∧ r.start ≤ now + cf.kill ∧ r.job.state = "Waiting" := by
        intro r
        unfold dueRows
        rw [(hord _).mem_iff, List.mem_filter]
        simp [toLaunchRow]
      -- a moldable of a waiting job is not the one of a job that occupies resources
      have hnot : ∀ j ∈ db.jobs, j.state = "Waiting" → ∀ m ∈ db.molds, m.job = j.id → ∀ j' ∈ db.jobs, Occupies j' → m.id ≠ j'.mold := by
        intro j hj hw m hm hmj j' hj' ho e
        obtain ⟨m', hm', e1, e2⟩ := hs.own j' hj' ho
        have : m = m' := nodup_inj hs.molds hm hm' (by rw [e, e1])
        have hjj : j = j' := nodup_inj hs.jobs hj hj' (by rw [← hmj, this, e2])
        rw [← hjj] at ho
        unfold Occupies at ho
        rw [hw] at ho
        simp at ho
      change launchRound s cf.sec now (dueRows cf ord now db2) sched db2 = _ at h
      refine ⟨db2, c2, sets, sets2, sched, js, ss0, done, Q, hb, ⟨hp, hwho, hgr⟩, q, hrows, ?_⟩
      rcases launchRound_cases _ _ _ _ _ _ _ _ h with ⟨hc, hkill, hd⟩ | ⟨hc, k, ks, _, hd⟩
      · left
        refine ⟨hc, hkill, hd, ?_⟩
        intro e he
        obtain ⟨he1, he2⟩ := List.mem_filter.1 he
        obtain ⟨r0, hr0, e1, e2, e3, _⟩ := extract_sound s cf.sec _ (fun r hr => by rw [((hrows r).1 hr).2.2]; decide) e he1
        obtain ⟨j1, j2, j3⟩ := (hrows r0).1 hr0
        obtain ⟨p1, ⟨m, hm, m1, m2, m3⟩, p3, p4⟩ := (mem_join _ r0).1 j1
        rw [qmolds] at hm
        rw [qjobs] at p3
        have hstart : e.start ≤ now := by
          unfold ready at he2
          rw [Bool.and_eq_true, decide_eq_true_eq] at he2
          exact he2.1
        have hnm := hnot r0.job p3 j3 m hm m2
        rw [qpreds] at p1
        have hq : ∃ q0 ∈ Q, q0.mid = r0.mid ∧ q0.start = r0.start := by
          rcases List.mem_append.1 p1 with p1 | p1
          · obtain ⟨j', hj', ho, ee⟩ := started_preds p1
            simp only [Prod.mk.injEq] at ee
            exact absurd (m1.trans ee.1) (hnm j' hj' ho)
          · obtain ⟨q0, hq0, ee⟩ := List.mem_map.1 p1
            simp only [Prod.mk.injEq] at ee
            exact ⟨q0, hq0, ee.1, ee.2⟩
        obtain ⟨q0, hq0, q1, q2⟩ := hq
        have hown : ∀ q' ∈ Q, q'.mid = r0.mid → q'.job.id = r0.job.id := by
          intro q' hq' eq
          obtain ⟨_, _, m', hm', f1, f2⟩ := q.free q' hq'
          have : m' = m := nodup_inj hs.molds hm' hm (by rw [f1, eq, m1])
          rw [← f2, this, m2]
        refine ⟨q0, hq0, by rw [q1, e2], by rw [hown q0 hq0 q1, e1], by rw [q2, ← e3]; exact hstart, ⟨r0.job, p3, by rw [e1], j3⟩,
          ⟨m, hm, by rw [m1, e2], by rw [m2, e1]⟩, ?_, fun k hk => by
            rw [qgres]
            exact List.mem_append_right _ (List.mem_flatMap.2 ⟨q0, hq0, List.mem_map.2 ⟨k, hk, by rw [q1, e2]⟩⟩)⟩
        intro r hrr
        have hrow : (⟨r0.job, r0.mid, r0.start, r0.walltime, r⟩ : Row) ∈ dueRows cf ord now db2 := by
          rw [hrows]
          refine ⟨?_, j2, j3⟩
          rw [mem_join]
          refine ⟨?_, ⟨m, by rw [qmolds]; exact hm, m1, m2, m3⟩, by rw [qjobs]; exact p3, by rw [e2] at hrr; exact hrr⟩
          rw [qpreds]; exact p1
        rw [qgres] at hrr
        rcases List.mem_append.1 hrr with hrr | hrr
        · obtain ⟨j', hj', ho, ee, _⟩ := started_gres hrr
          exact absurd (m1.trans (e2.symm.trans ee)) (hnm j' hj' ho)
        · obtain ⟨q', hq', hm'⟩ := List.mem_flatMap.1 hrr
          obtain ⟨k, hk1, hk2⟩ := List.mem_map.1 hm'
          simp only [Prod.mk.injEq] at hk2
          have : q' = q0 := pairwise_ids q.pair hq' hq0 (by rw [hown q' hq' (hk2.1.trans e2), hown q0 hq0 q1])
          subst this
          exact ⟨k, hk1, hk2.2.symm, _, hrow, by rw [e1], rfl⟩
      · exact Or.inr ⟨hc, k, ks, hd⟩

/-- A moldable of a waiting job is not the one of a job that occupies resources. -/
theorem waiting_mold {db : DB} (hs : Sound db) : ∀ j ∈ db.jobs, j.state = "Waiting" → ∀ m ∈ db.molds, m.job = j.id → ∀ j' ∈ db.jobs, Occupies j' → m.id ≠ j'.mold := by
  intro j hj hw m hm hmj j' hj' ho e
  obtain ⟨m', hm', e1, e2⟩ := hs.own j' hj' ho
  have : m = m' := nodup_inj hs.molds hm hm' (by rw [e, e1])
  have hjj : j = j' := nodup_inj hs.jobs hj hj' (by rw [← hmj, this, e2])
  rw [← hjj] at ho
  unfold Occupies at ho
  rw [hw] at ho
  simp at ho

/-- **C95** (what holds). A regular round keeps the resources exclusive: whatever the load, the policy, the quotas, the order of the rows, the availability of the resources and the
best-effort jobs to kill. -/
theorem round_exclusive_partial (cf : Conf) (ctx : Kao.Ctx) (s : RS) (ord : List Row → List Row) (gs : List Grp) (now : Int) (db db' : DB) (code : Int)
    (hord : ∀ l, (ord l).Perm l) (hr : Regular cf ctx s gs now db) (hx : Exclusive db) (h : round cf ctx s ord gs now db = some (db', code)) : Exclusive db' := by
  obtain ⟨db2, c2, sets, sets2, sched, js, ss0, done, Q, hb, _, q, hrows, hcase⟩ := round_facts hord hr h
  obtain ⟨hs, ht, hsi, hg, hn, hcal, hnow⟩ := hr
  have qjobs : db2.jobs = db.jobs := q.jobs
  have qass : db2.assigned = db.assigned := q.assigned
  rcases hcase with ⟨_, hkill, hd, hL⟩ | ⟨_, k, ks, hd⟩
  · -- nothing to kill
    generalize hR : dueRows cf ord now db2 = rows at *
    generalize hLd : (extract s cf.sec rows).filter (ready s now) = L at hL hd
    -- who holds what in the end
    have hcl : ∀ j ∈ db'.jobs, Occupies j → ∀ r, Holds db' j r →
        (j ∈ db.jobs ∧ Holds db j r) ∨
        ∃ q0 ∈ Q, q0.job.id = j.id ∧ q0.start ≤ now ∧ ∃ k ∈ q0.res, r = s.o2i k ∧
          ∃ row ∈ rows, row.rid = r := by
      intro j hj ho r hh
      rw [hd] at hj
      unfold Holds at hh
      rw [hd, launchAll_assigned, qass] at hh
      rcases launchAll_jobs now L db2 j hj with ⟨k1, k2⟩ | ⟨e, he, j0, hj0, k1, k2⟩
      · rw [qjobs] at k1
        rcases hh with hh | ⟨_, e, he, k3⟩
        · exact Or.inl ⟨k1, hh⟩
        · obtain ⟨q0, hq0, _, _, _, _, ⟨m, hm, m1, m2⟩, _⟩ := hL e he
          obtain ⟨m', hm', f1, f2⟩ := hs.own j k1 ho
          have : m = m' := nodup_inj hs.molds hm hm' (by rw [m1, f1]; exact k3.symm)
          exact absurd (by rw [← m2, this, f2]) (k2 e he)
      · rw [qjobs] at hj0
        obtain ⟨q0, hq0, g1, g2, g3, ⟨jw, hjw, w1, w2⟩, ⟨m, hm, m1, m2⟩, g4, _⟩ := hL e he
        have hmold : j.mold = e.mid := by rw [k2]; rfl
        have hid : j.id = j0.id := by rw [k2]; rfl
        rcases hh with hh | ⟨hh, _⟩
        · rw [hmold, ← m1] at hh
          exact absurd hh (hs.fresh jw hjw w2 m hm (by rw [m2, w1]) r)
        · rw [hmold] at hh
          obtain ⟨k, c1, c2, row, c3, _, c4⟩ := g4 r hh
          exact Or.inr ⟨q0, hq0, by rw [g2, k1, hid], g3, k, c1, c2, row, c3, c4⟩
    -- an old job and a new one
    have hmix : ∀ a ∈ db.jobs, Occupies a → ∀ r, Holds db a r → ∀ q0 ∈ Q, q0.start ≤ now → ∀ k ∈ q0.res, r = s.o2i k →
        (∃ row ∈ rows, row.rid = r) → False := by
      intro a ha ho r hh q0 hq0 hle k hk e ⟨row, hrow, hrid⟩
      have hfree := (q.free q0 hq0).2.1 hle k hk
      have hro := hb.alive now k hfree
      rw [e] at hh
      obtain ⟨b1, b2⟩ := hb.busy a ha ho k hro hh
      by_cases hbe : BestEffort a
      · have hl := (beMap_lookup sched k).2 a (b1 hbe)
        have hkey := (ridMap_keys s _ [] k).2 (Or.inl ⟨row, hrow, by rw [hrid, e]; exact numbered_inverse hn k hro⟩)
        obtain ⟨v, hv⟩ := mem_lookup _ _ hkey
        obtain ⟨b, hbl⟩ := Option.isSome_iff_exists.1 hl
        have := (toKill_empty _ _ _ hkill).2 (k, v) hv b hbl
        simp at this
      · obtain ⟨d, hd, d1, _⟩ := hs.own a ha ho
        exact b2 hbe d hd d1 now (le_refl _) (((ht a ha ho).2.2 d hd d1).2 hbe) hfree
    intro a ha b hb' hab hoa hob r h1 h2
    rcases hcl a ha hoa r h1 with ⟨a1, a2⟩ | ⟨qa, ha1, ha2, ha3, ka, ha4, ha5, ha6⟩
    · rcases hcl b hb' hob r h2 with ⟨b1, b2⟩ | ⟨qb, hb1, hb2, hb3, kb, hb4, hb5, hb6⟩
      · exact hx a a1 b b1 hab hoa hob r a2 b2
      · exact hmix a a1 hoa r a2 qb hb1 hb3 kb hb4 hb5 hb6
    · rcases hcl b hb' hob r h2 with ⟨b1, b2⟩ | ⟨qb, hb1, hb2, hb3, kb, hb4, hb5, hb6⟩
      · exact hmix b b1 hob r b2 qa ha1 ha3 ka ha4 ha5 ha6
      · have hwp : ∀ q0 ∈ Q, 0 < q0.walltime := fun q0 hq0 => by
          obtain ⟨_, _, _, m, _, _, ⟨m2, m2'⟩, _⟩ := q.ans q0 hq0
          omega
        have pa := hwp qa ha1
        have pb := hwp qb hb1
        have la := (q.free qa ha1).1
        have lb := (q.free qb hb1).1
        have hd1 := pairwise_disjoint q.pair ha1 hb1 (by rw [ha2, hb2]; exact hab) ha3 (by omega) hb3 (by omega) ka ha4
        have e1 := numbered_inverse hn ka (hb.alive now ka ((q.free qa ha1).2.1 ha3 ka ha4))
        have e2 := numbered_inverse hn kb (hb.alive now kb ((q.free qb hb1).2.1 hb3 kb hb4))
        rw [← ha5, hb5, e2] at e1
        rw [e1] at hb4
        exact hd1 hb4
  · -- best-effort jobs are killed: nothing is launched
    obtain ⟨g1, g2⟩ := killAll_same (k :: ks) db2
    rw [← hd] at g1 g2
    rw [qjobs] at g1
    rw [qass] at g2
    intro a ha b hb' hab hoa hob r h1 h2
    rw [g1] at ha hb'
    unfold Holds at h1 h2
    rw [g2] at h1 h2
    exact hx a ha b hb' hab hoa hob r h1 h2

/-- **C95** (what holds), for every history: from a system where nothing runs, any sequence of regular rounds and of changes by the other programs leaves the resources exclusive. -/
theorem history_exclusive_partial (db : DB) (h : History db) : Exclusive db := by
  induction h with
  | start db h => exact fun a ha _ _ _ hoa => absurd hoa (h a ha)
  | other db db' _ hb ih =>
    intro a ha b hb' hab hoa hob r h1 h2
    obtain ⟨a0, a1, a2, a3, a4⟩ := hb a ha hoa
    obtain ⟨b0, b1, b2, b3, b4⟩ := hb b hb' hob
    exact ih a0 a1 b0 b1 (by rw [a2, b2]; exact hab) a3 b3 r (a4 r h1) (b4 r h2)
  | round cf ctx s ord gs now db db' code _ hord hr hrun ih => exact round_exclusive_partial cf ctx s ord gs now db db' code hord hr ih hrun


/-! ## Examples -/

/-- Three machines. -/
def exRows : List Res := [5, 7, 9].map (fun i => ⟨i, "Alive", "default", 2147483646, "n", fun _ => ""⟩)

def exS : RS := (build [] ["id"] exRows).getD (ResSet.init [])

def exCtx : Kao.Ctx := ⟨⟨false, [], ["*"], ∅⟩, none⟩

/-- A job that asks for one machine during `w`. -/
def exWait (id mid : Nat) (w : Int) : Kao.Job := { id := id, mlds := [⟨mid, w, [⟨[("id", 1)], {0, 1, 2}⟩]⟩] }

def exJob (id : Nat) (state : String) (types : List (List Char)) (start : Int) (mold : Nat) : LJob :=
  ⟨id, state, "None", "default", "u", "j", types, 0, false, 0, start, mold⟩

/-- Job 2 is best-effort. -/
def exDb0 : DB :=
  ⟨[exJob 1 "Waiting" [] 0 0, exJob 2 "Waiting" [txt "besteffort"] 0 0, exJob 3 "Hold" [] 0 0, exJob 4 "Hold" [] 0 0],
   [⟨11, 1, 500⟩, ⟨12, 2, 500⟩, ⟨13, 3, 20⟩, ⟨14, 4, 20⟩], [], [], [], [], [], []⟩

def exRun (gs : List Grp) (now : Int) (db : DB) : Option (DB × Int) := round { sec := 60 } exCtx exS id gs now db

/-- Set the state of a job. -/
def exSet (i : Nat) (st : String) (db : DB) : DB := { db with jobs := db.jobs.map (fun j => if j.id = i then { j with state := st } else j) }

def exBe (w : Kao.Job) : Kao.Job := { w with types := [("besteffort", "")] }

def exG1 : List Grp := [⟨["default"], [exWait 1 11 500], []⟩, ⟨["besteffort"], [exBe (exWait 2 12 500)], []⟩]
def exG2 : List Grp := [⟨["default"], [exWait 3 13 20, exWait 4 14 20], []⟩, ⟨["besteffort"], [], []⟩]

def exDb1 : DB := ((exRun exG1 100 exDb0).map (·.1)).getD exDb0
def exDb2 : DB := exSet 4 "Waiting" (exSet 3 "Waiting" (exSet 2 "Running" (exSet 1 "Running" exDb1)))
def exDb3 : DB := ((exRun exG2 200 exDb2).map (·.1)).getD exDb0
def exDb4 : DB := exSet 2 "Terminated" exDb3
def exDb5 : DB := ((exRun exG2 260 exDb4).map (·.1)).getD exDb0

theorem exS_build : build [] ["id"] exRows = some exS := by
  unfold exS
  cases h : build [] ["id"] exRows with
  | none => exact absurd h (by simp [build, load, addRes, exRows, Res.usable, maxRes])
  | some s => rfl

theorem exS_numbered (db : DB) : Numbered exS db :=
  ⟨[], ["id"], exRows, by decide, exS_build, by simp [exRows, Kao.maxTime], Or.inl rfl⟩

instance (j : LJob) : Decidable (BestEffort j) := by unfold BestEffort; infer_instance

theorem sound_of {db : DB} (h1 : (db.jobs.map (·.id)).Nodup) (h2 : (db.molds.map (·.id)).Nodup)
    (h3 : ∀ j ∈ db.jobs, Occupies j → ∃ m ∈ db.molds, m.id = j.mold ∧ m.job = j.id)
    (h4 : ∀ j ∈ db.jobs, j.state = "Waiting" → ∀ m ∈ db.molds, m.job = j.id → ∀ a ∈ db.assigned, a.1 ≠ m.id) : Sound db :=
  ⟨h1, h2, h3, fun j hj hw m hm e r hr => h4 j hj hw m hm e _ hr rfl⟩

theorem exRegular {gs : List Grp} {now : Int} {db : DB} (h1 : (db.jobs.map (·.id)).Nodup) (h2 : (db.molds.map (·.id)).Nodup)
    (h3 : ∀ j ∈ db.jobs, Occupies j → ∃ m ∈ db.molds, m.id = j.mold ∧ m.job = j.id)
    (h4 : ∀ j ∈ db.jobs, j.state = "Waiting" → ∀ m ∈ db.molds, m.job = j.id → ∀ a ∈ db.assigned, a.1 ≠ m.id)
    (h5 : ∀ j ∈ db.jobs, Occupies j → 0 ≤ j.start ∧ j.start ≤ now ∧ ∀ m ∈ db.molds, m.id = j.mold → 1 ≤ m.walltime + extra 60 j ∧
      (¬ BestEffort j → now < j.start + (m.walltime + extra 60 j)))
    (h6 : ∀ j ∈ db.jobs, j.reservation ≠ "Scheduled" ∧ (tjob j).types.lookup (txt "container") = none ∧ (tjob j).types.lookup (txt "inner") = none)
    (h7 : Given gs db) (h8 : 0 ≤ now ∧ now ≤ Kao.maxTime) : Regular { sec := 60 } exCtx exS gs now db :=
  ⟨sound_of h1 h2 h3 h4, h5, h6, h7, exS_numbered db, rfl, h8⟩

theorem exSet_between (i : Nat) (st : String) (db : DB) (h : (exJob i st [] 0 0 |> Occupies) → ∃ j ∈ db.jobs, j.id = i ∧ Occupies j)
    (hn : (db.jobs.map (·.id)).Nodup) : Between db (exSet i st db) := by
  intro j' hj' ho
  obtain ⟨j, hj, rfl⟩ := List.mem_map.1 hj'
  by_cases hi : j.id = i
  · rw [if_pos hi] at ho ⊢
    obtain ⟨j2, hj2, e1, e2⟩ := h ho
    have : j2 = j := nodup_inj hn hj2 hj (e1.trans hi.symm)
    rw [this] at e2
    exact ⟨j, hj, rfl, e2, fun r hr => hr⟩
  · rw [if_neg hi] at ho ⊢
    exact ⟨j, hj, rfl, ho, fun r hr => hr⟩

/-- The theorem is not vacuous: a history of three regular rounds: two jobs are launched, one of them best-effort; two other jobs arrive, the best-effort job must be killed, nothing is
launched; once it has ended, both jobs are launched, one on its machine. -/
theorem history_example : History exDb5 ∧ exDb5.assigned = [(11, 5), (12, 7), (13, 7), (14, 9)] ∧
    exDb5.jobs.map (fun j => (j.id, j.state)) = [(1, "Running"), (2, "Terminated"), (3, "toLaunch"), (4, "toLaunch")] := by
  refine ⟨?_, by decide +kernel, by decide +kernel⟩
  have hrun : ∀ (gs : List Grp) (now : Int) (db db' : DB) (code : Int), History db → Regular { sec := 60 } exCtx exS gs now db →
      exRun gs now db = some (db', code) → History db' := fun gs now db db' code h hr hx =>
    History.round _ _ _ id gs now db db' code h (fun l => List.Perm.refl l) hr hx
  have hset : ∀ (i : Nat) (st : String) (db : DB), (db.jobs.map (·.id)).Nodup → ((exJob i st [] 0 0 |> Occupies) → ∃ j ∈ db.jobs, j.id = i ∧ Occupies j) →
      History db → History (exSet i st db) := fun i st db hn hc h => History.other _ _ h (exSet_between i st db hc hn)
  have h0 : History exDb0 := History.start _ (by decide +kernel)
  have h1 : History exDb1 := hrun exG1 100 exDb0 exDb1 0 h0
    (exRegular (by decide +kernel) (by decide +kernel) (by decide +kernel) (by decide +kernel) (by decide +kernel) (by decide +kernel)
      ⟨by decide +kernel, by decide +kernel, by decide +kernel, by decide +kernel, by decide +kernel⟩ (by decide +kernel)) (by decide +kernel)
  have h2 : History exDb2 := hset 4 "Waiting" _ (by decide +kernel) (by decide +kernel) (hset 3 "Waiting" _ (by decide +kernel) (by decide +kernel)
    (hset 2 "Running" _ (by decide +kernel) (by decide +kernel) (hset 1 "Running" _ (by decide +kernel) (by decide +kernel) h1)))
  have h3 : History exDb3 := hrun exG2 200 exDb2 exDb3 2 h2
    (exRegular (by decide +kernel) (by decide +kernel) (by decide +kernel) (by decide +kernel) (by decide +kernel) (by decide +kernel)
      ⟨by decide +kernel, by decide +kernel, by decide +kernel, by decide +kernel, by decide +kernel⟩ (by decide +kernel)) (by decide +kernel)
  have h4 : History exDb4 := hset 2 "Terminated" _ (by decide +kernel) (by decide +kernel) h3
  exact hrun exG2 260 exDb4 exDb5 0 h4
    (exRegular (by decide +kernel) (by decide +kernel) (by decide +kernel) (by decide +kernel) (by decide +kernel) (by decide +kernel)
      ⟨by decide +kernel, by decide +kernel, by decide +kernel, by decide +kernel, by decide +kernel⟩ (by decide +kernel)) (by decide +kernel)

/-! ## Where the property fails -/

theorem not_exclusive {db : DB} (a b : LJob) (r : Nat) (ha : a ∈ db.jobs) (hb : b ∈ db.jobs) (hab : a.id ≠ b.id) (hoa : Occupies a) (hob : Occupies b)
    (h1 : Holds db a r) (h2 : Holds db b r) : ¬ Exclusive db := fun h => h a ha b hb hab hoa hob r h1 h2

theorem exclusive_of {db : DB} (h : ∀ a ∈ db.jobs, ∀ b ∈ db.jobs, a.id ≠ b.id → Occupies a → Occupies b → ∀ x ∈ db.assigned, x.1 = a.mold → (b.mold, x.2) ∉ db.assigned) :
    Exclusive db := fun a ha b hb hab hoa hob r h1 h2 => h a ha b hb hab hoa hob (a.mold, r) h1 rfl h2

/-- A job in its epilogue: its walltime (10) and the security time (60) are over, the state is Finishing. -/
def lateDb : DB :=
  ⟨[exJob 1 "Finishing" [] 0 11, exJob 3 "Waiting" [] 0 0], [⟨11, 1, 10⟩, ⟨13, 3, 20⟩], [], [], [(11, 5)], [], [], []⟩

def lateGs : List Grp := [⟨["default"], [exWait 3 13 20], []⟩]

/-- **C95** is violated: a job which is still there after its walltime and the security time keeps its resources, yet they are given to another job. All the hypotheses hold but the dates. -/
theorem overdue_violated : Exclusive lateDb ∧ Sound lateDb ∧ Simple lateDb ∧ Given lateGs lateDb ∧ Numbered exS lateDb ∧
    ∃ db', exRun lateGs 100 lateDb = some (db', 0) ∧ ¬ Exclusive db' ∧ db'.jobs.map (fun j => (j.id, j.state)) = [(1, "Finishing"), (3, "toLaunch")] ∧
      db'.assigned = [(11, 5), (13, 5)] := by
  refine ⟨exclusive_of (by decide +kernel), sound_of (by decide +kernel) (by decide +kernel) (by decide +kernel) (by decide +kernel), by unfold Simple; decide +kernel,
    ⟨by decide +kernel, by decide +kernel, by decide +kernel, by decide +kernel, by decide +kernel⟩, exS_numbered _,
    ((exRun lateGs 100 lateDb).map (·.1)).getD lateDb, by decide +kernel, ?_, by decide +kernel, by decide +kernel⟩
  exact not_exclusive (exJob 1 "Finishing" [] 0 11) (exJob 3 "toLaunch" [] 100 13) 5 (by decide +kernel) (by decide +kernel) (by decide +kernel) (by decide +kernel)
    (by decide +kernel) (by decide +kernel) (by decide +kernel)

/-- Two reservations of the machine 5 that follow each other: the first from 100 during 10, then the security time (60); the second from 170. -/
def resvDb : DB :=
  ⟨[{ exJob 1 "Waiting" [] 100 0 with reservation := "Scheduled" }, { exJob 2 "Waiting" [] 170 0 with reservation := "Scheduled" }], [⟨11, 1, 10⟩, ⟨12, 2, 10⟩],
   [(11, 100), (12, 170)], [(11, 5), (12, 5)], [], [], [], []⟩

def resvGs : List Grp := [⟨["default"], [], []⟩]

def resvRun (s : RS) (now : Int) (db : DB) : Option (DB × Int) := round { sec := 60, timeout := 300 } exCtx s id resvGs now db

/-- **C95** is violated with reservations launched late: at 110 the walltime of the first becomes 60 (the security time counts as walltime); at 170, when it is inside its walltime and
the security time, the second is launched on the same machine. -/
theorem late_reservation_violated : Exclusive resvDb ∧ Sound resvDb ∧ ∃ db1 db3, resvRun exS 110 resvDb = some (db1, 0) ∧
    (∀ j ∈ db1.jobs, j.id = 1 → j.state = "toLaunch" ∧ j.start = 110) ∧ (∀ m ∈ db1.molds, m.job = 1 → m.walltime = 60) ∧
    Exclusive (exSet 1 "Running" db1) ∧ OnTime 60 170 (exSet 1 "Running" db1) ∧ resvRun exS 170 (exSet 1 "Running" db1) = some (db3, 0) ∧ ¬ Exclusive db3 := by
  refine ⟨exclusive_of (by decide +kernel), sound_of (by decide +kernel) (by decide +kernel) (by decide +kernel) (by decide +kernel),
    ((resvRun exS 110 resvDb).map (·.1)).getD lateDb,
    ((resvRun exS 170 (exSet 1 "Running" (((resvRun exS 110 resvDb).map (·.1)).getD lateDb))).map (·.1)).getD lateDb, by decide +kernel, by decide +kernel, by decide +kernel,
    exclusive_of (by decide +kernel), by unfold OnTime; decide +kernel, by decide +kernel, ?_⟩
  exact not_exclusive { exJob 1 "Running" [] 110 11 with reservation := "Scheduled" } { exJob 2 "toLaunch" [] 170 12 with reservation := "Scheduled" } 5 (by decide +kernel)
    (by decide +kernel) (by decide +kernel) (by decide +kernel) (by decide +kernel) (by decide +kernel) (by decide +kernel)

/-- The machine 5 is suspected. -/
def downS : RS := (build [] ["id"] (exRows.map (fun r => if r.id = 5 then { r with state := "Suspected" } else r))).getD (ResSet.init [])

/-- **C95** is violated with a reservation delayed by its machine: at 150 the machine is suspected and the reservation is moved to 151 with its whole walltime; at 160 it is back and the
reservation is launched for 61 seconds; at 170 the second reservation is launched on the same machine. -/
theorem moved_reservation_violated : Exclusive resvDb ∧ ∃ db1 db2 db3, resvRun downS 150 resvDb = some (db1, 0) ∧ db1.preds = [(11, 151), (12, 170)] ∧
    resvRun exS 160 db1 = some (db2, 0) ∧ (∀ j ∈ db2.jobs, j.id = 1 → j.state = "toLaunch" ∧ j.start = 160) ∧ (∀ m ∈ db2.molds, m.job = 1 → m.walltime = 61) ∧
    resvRun exS 170 (exSet 1 "Running" db2) = some (db3, 0) ∧ ¬ Exclusive db3 := by
  refine ⟨exclusive_of (by decide +kernel), ((resvRun downS 150 resvDb).map (·.1)).getD lateDb,
    ((resvRun exS 160 (((resvRun downS 150 resvDb).map (·.1)).getD lateDb)).map (·.1)).getD lateDb,
    ((resvRun exS 170 (exSet 1 "Running" (((resvRun exS 160 (((resvRun downS 150 resvDb).map (·.1)).getD lateDb)).map (·.1)).getD lateDb))).map (·.1)).getD lateDb,
    by decide +kernel, by decide +kernel, by decide +kernel, by decide +kernel, by decide +kernel, by decide +kernel, ?_⟩
  exact not_exclusive { exJob 1 "Running" [] 160 11 with reservation := "Scheduled" } { exJob 2 "toLaunch" [] 170 12 with reservation := "Scheduled" } 5 (by decide +kernel)
    (by decide +kernel) (by decide +kernel) (by decide +kernel) (by decide +kernel) (by decide +kernel) (by decide +kernel)

end Oar.Round
