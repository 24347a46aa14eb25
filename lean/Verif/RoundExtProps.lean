import Verif.RoundExtSpec
import Verif.RoundProps

/-!
# Rounds in external mode (C102)
-/

namespace Oar.Round

open Oar.Launch Oar.ResSet Oar.JobTypes Oar.Tools Oar.Queues Spec Oar.Kao.Spec

/-! ## The return code -/

/-- **C102.** The queue goes on exactly when its scheduler was started and ended with the code 0: for every exit code and every signal. -/
theorem goes_on_iff (rc : Option Int) : mustStop rc = false ↔ rc = some 0 := by
  cases rc with
  | none => simp [mustStop]
  | some rc =>
    unfold mustStop
    dsimp only
    rw [Int.shiftRight_eq_div_pow]
    simp only [Bool.or_eq_false_iff, decide_eq_false_iff_not, Option.some.injEq]
    norm_num
    omega

/-! ## The jobs of the Gantt -/

theorem sortedP_mem (rows : List Row) (r : Row) : r ∈ sortedP rows ↔ r ∈ rows := by
  unfold sortedP
  rw [(sorted_spec (fun r : Row => r.start) _).1.mem_iff, (sorted_spec (fun r : Row => r.job.id) _).1.mem_iff]

theorem groupedP_of_lex : ∀ (l : List Row), (∀ a ∈ l, ∀ b ∈ l, a.job.id = b.job.id → a.start = b.start) →
    l.Pairwise (fun a b => a.start < b.start ∨ (a.start = b.start ∧ a.job.id ≤ b.job.id)) → Grouped l
  | [], _, _ => trivial
  | r :: rs, hs, hp => by
    have hp1 : (∀ b ∈ rs, r.start < b.start ∨ (r.start = b.start ∧ r.job.id ≤ b.job.id)) ∧
      rs.Pairwise (fun a b => a.start < b.start ∨ (a.start = b.start ∧ a.job.id ≤ b.job.id)) := List.pairwise_cons.1 hp
    refine ⟨groupedP_of_lex rs (fun a ha b hb => hs a (List.mem_cons_of_mem _ ha) b (List.mem_cons_of_mem _ hb)) hp1.2, ?_⟩
    rintro ⟨x, hx, e⟩
    cases rs with
    | nil => simp at hx
    | cons y t =>
      refine ⟨y, t, rfl, ?_⟩
      rcases List.mem_cons.1 hx with rfl | hx
      · exact e
      · have h1 := hp1.1 y (by simp)
        have h2 := (List.pairwise_cons.1 hp1.2).1 x hx
        have h3 := hs x (by simp [hx]) r (by simp) e
        rw [h3] at h2
        rw [e] at h2
        omega

theorem sortedP_lex (rows : List Row) : (sortedP rows).Pairwise (fun a b => a.start < b.start ∨ (a.start = b.start ∧ a.job.id ≤ b.job.id)) := by
  unfold sortedP
  have h1 := sorted_spec (fun r : Row => r.job.id) rows
  have h2 := sorted_spec (fun r : Row => r.start) (pySort (fun r : Row => r.job.id) rows)
  generalize pySort (fun r : Row => r.job.id) rows = l at *
  generalize pySort (fun r : Row => r.start) l = o at *
  have hp := h2.2.1
  have hf : ∀ k, (o.filter (fun a => decide (a.start = k))).Pairwise (fun a b => a.job.id ≤ b.job.id) := by
    intro k
    rw [h2.2.2 k]
    exact h1.2.1.sublist List.filter_sublist
  clear h1 h2
  induction o with
  | nil => exact List.Pairwise.nil
  | cons a o ih =>
    have hp1 : (∀ b ∈ o, a.start ≤ b.start) ∧ o.Pairwise (fun a b => a.start ≤ b.start) := List.pairwise_cons.1 hp
    refine List.pairwise_cons.2 ⟨?_, ih hp1.2 ?_⟩
    · intro b hb
      rcases Int.lt_or_eq_of_le (hp1.1 b hb) with h | h
      · exact Or.inl h
      · right
        refine ⟨h, ?_⟩
        have := hf a.start
        rw [List.filter_cons_of_pos (by simp)] at this
        exact (List.pairwise_cons.1 this).1 b (List.mem_filter.2 ⟨hb, by simpa using h.symm⟩)
    · intro k
      exact (hf k).sublist ((List.sublist_cons_self a o).filter _)

/-- Rows of the same job are alike. -/
def Alike (rows : List Row) : Prop := ∀ a ∈ rows, ∀ b ∈ rows, a.job.id = b.job.id → a.job = b.job ∧ a.start = b.start ∧ a.walltime = b.walltime

/-- The job given to the timelines for a row. -/
def Stands (sec : Int) (r : Row) (a : Kao.Job) : Prop :=
  a.startTime = r.start ∧ a.walltime = some (r.walltime + extra sec r.job) ∧ ∀ k : List Char, a.types.lookup (String.ofList k) = ((tjob r.job).types.lookup k).map String.ofList

theorem gantt_jobs {s : RS} {sec : Int} {rows : List Row} {js : List Kao.Job} (ha : Alike rows) (hsu : s.suspendable = [] ∨ ∀ r ∈ rows, r.job.state ≠ "Suspended")
    (hm : (extract s sec (sortedP rows)).mapM toJob = some js) :
    js.Pairwise (fun a b => a.startTime ≤ b.startTime) ∧ (∀ a ∈ js, ∃ r ∈ rows, Stands sec r a ∧ ∃ R, a.resSet = some R) ∧
      ∀ r ∈ rows, ∃ a ∈ js, Stands sec r a ∧ ∃ R, a.resSet = some R ∧ s.i2o r.rid ∈ R := by
  have hlex := sortedP_lex rows
  have hgr : Grouped (sortedP rows) := groupedP_of_lex _ (fun a h1 b h2 e => (ha a ((sortedP_mem _ a).1 h1) b ((sortedP_mem _ b).1 h2) e).2.1) hlex
  rw [extract_grouped' s sec _ hgr (hsu.imp id (fun h r hr => h r ((sortedP_mem _ r).1 hr)))] at hm
  obtain ⟨m1, m2, m3⟩ := mapM_toJob _ _ hm
  have hst : ∀ x ∈ runs (sortedP rows), ∀ a, toJob (mkJob s sec x) = some a → ∀ r ∈ rows, x.1.job = r.job → x.1.start = r.start → x.1.walltime = r.walltime → Stands sec r a := by
    intro x _ a ha r _ e1 e2 e3
    obtain ⟨t1, t2, _, t4⟩ := toJob_spec ha
    refine ⟨t1.trans e2, ?_, ?_⟩
    · rw [t2]
      show some (x.1.walltime + sec + (if x.1.job.suspended then x.1.job.suspSum else 0)) = _
      unfold extra
      rw [e3, e1]
      congr 1
      omega
    · intro k
      rw [← e1]
      exact t4 k
  refine ⟨m3 ?_, ?_, ?_⟩
  · rw [List.pairwise_map]
    have hp2 := hlex.sublist (runs_sublist (sortedP rows))
    rw [List.pairwise_map] at hp2
    refine hp2.imp ?_
    intro a b hab
    show a.1.start ≤ b.1.start
    omega
  · intro a ha'
    obtain ⟨e, he, he2⟩ := m1 a ha'
    obtain ⟨x, hx, rfl⟩ := List.mem_map.1 he
    have hx1 := (sortedP_mem _ _).1 (runs_sound _ x hx).1
    exact ⟨x.1, hx1, hst x hx a he2 x.1 hx1 rfl rfl rfl, _, (toJob_spec he2).2.2.1⟩
  · intro r hr
    obtain ⟨x, hx, x1, x2⟩ := runs_complete _ _ ((sortedP_mem _ r).2 hr)
    obtain ⟨a, ha1, ha2⟩ := m2 _ (List.mem_map.2 ⟨x, hx, rfl⟩)
    have hx1 := (sortedP_mem _ _).1 (runs_sound _ x hx).1
    obtain ⟨e1, e2, e3⟩ := ha x.1 hx1 r hr x1
    refine ⟨a, ha1, hst x hx a ha2 r hr e1 e2 e3, _, (toJob_spec ha2).2.2.1, ?_⟩
    rw [List.mem_toFinset]
    show s.i2o r.rid ∈ x.2.map s.i2o
    exact List.mem_map.2 ⟨_, x2, rfl⟩

theorem stands_be {sec : Int} {r : Row} {a : Kao.Job} (h : Stands sec r a) : a.hasType "besteffort" = true ↔ BestEffort r.job := by
  have c1 := h.2.2 (txt "besteffort")
  change a.types.lookup (String.ofList "besteffort".toList) = Option.map String.ofList ((tjob r.job).types.lookup (txt "besteffort")) at c1
  rw [String.ofList_toList] at c1
  unfold BestEffort Kao.Job.hasType
  rw [c1, Option.isSome_map]

theorem stands_flat {sec : Int} {r : Row} {a : Kao.Job} (h : Stands sec r a) (hc : (tjob r.job).types.lookup (txt "container") = none) (hi : (tjob r.job).types.lookup (txt "inner") = none) :
    a.types.lookup "container" = none ∧ a.types.lookup "inner" = none := by
  have c1 := h.2.2 (txt "container")
  have c2 := h.2.2 (txt "inner")
  change a.types.lookup (String.ofList "container".toList) = Option.map String.ofList ((tjob r.job).types.lookup (txt "container")) at c1
  change a.types.lookup (String.ofList "inner".toList) = Option.map String.ofList ((tjob r.job).types.lookup (txt "inner")) at c2
  rw [hc, String.ofList_toList] at c1
  rw [hi, String.ofList_toList] at c2
  exact ⟨c1, c2⟩

/-! ## What is planned by the schedulers so far -/

/-- `Q` are the jobs placed so far, `done` the identifiers of the jobs treated. -/
structure Planned (s : RS) (sec now : Int) (db : DB) (done : List Nat) (Q : List EJob) (x : DB) : Prop where
  jobs : x.jobs = db.jobs
  molds : x.molds = db.molds
  assigned : x.assigned = db.assigned
  preds : ∀ p : Nat × Int, p.1 ≠ 0 → (p ∈ x.preds ↔ p ∈ (started s db).preds ∨ ∃ e ∈ Q, p = (e.mid, e.start))
  gres : ∀ g : Nat × Nat, g.1 ≠ 0 → (g ∈ x.gres ↔ g ∈ (started s db).gres ∨ ∃ e ∈ Q, ∃ k ∈ e.res, g = (e.mid, s.o2i k))
  row : ∀ e ∈ Q, e.job ∈ db.jobs ∧ e.job.state = "Waiting" ∧ now ≤ e.start ∧ e.job.id ∈ done
  mold : ∀ e ∈ Q, ∃ m ∈ db.molds, m.id = e.mid ∧ m.job = e.job.id ∧ e.walltime = m.walltime + sec ∧ 1 ≤ e.walltime
  alive : ∀ e ∈ Q, ∀ k ∈ e.res, k ∈ s.roids
  apart : ∀ e ∈ Q, ∀ j ∈ db.jobs, Occupies j → ¬ BestEffort j → ∀ k ∈ e.res, Holds db j (s.o2i k) → ∀ d ∈ db.molds, d.id = j.mold → j.start + (d.walltime + extra sec j) ≤ e.start
  pair : Q.Pairwise (fun a b => a.job.id ≠ b.job.id ∧ ∀ t, a.start ≤ t → t < a.start + a.walltime → b.start ≤ t → t < b.start + b.walltime → ∀ k ∈ a.res, k ∉ b.res)

theorem planned_row {s : RS} {sec now : Int} {db x : DB} {done : List Nat} {Q : List EJob} (hs : Sound db) (h0 : ∀ m ∈ db.molds, m.id ≠ 0) (hp : Planned s sec now db done Q x)
    {r : Row} (h : r ∈ join x) :
    (r.job ∈ db.jobs ∧ Occupies r.job ∧ r.mid = r.job.mold ∧ r.start = r.job.start ∧ (∃ m ∈ db.molds, m.id = r.job.mold ∧ m.walltime = r.walltime) ∧
      ∃ i, Holds db r.job i ∧ r.rid = s.o2i (s.i2o i)) ∨
    ∃ e ∈ Q, e.job = r.job ∧ e.mid = r.mid ∧ e.start = r.start ∧ e.walltime = r.walltime + sec ∧ ∃ k ∈ e.res, r.rid = s.o2i k := by
  obtain ⟨h1, ⟨m, hm, m1, m2, m3⟩, h3, h4⟩ := (mem_join _ r).1 h
  rw [hp.molds] at hm
  rw [hp.jobs] at h3
  have hne : r.mid ≠ 0 := by rw [← m1]; exact h0 m hm
  rw [hp.preds _ hne] at h1
  rw [hp.gres _ hne] at h4
  have hmix : ∀ e ∈ Q, e.mid = r.mid → ∀ j ∈ db.jobs, Occupies j → r.mid ≠ j.mold := by
    intro e he ee j hj ho
    obtain ⟨d, hd, d1, d2, _⟩ := hp.mold e he
    obtain ⟨r1, r2, _⟩ := hp.row e he
    rw [← ee, ← d1]
    exact waiting_mold hs e.job r1 r2 d hd d2 j hj ho
  rcases h1 with h1 | ⟨e, he, ee⟩
  · rcases h4 with h4 | ⟨e, he, k, hk, ee⟩
    · left
      exact started_row hs ((mem_join _ r).2 ⟨h1, ⟨m, hm, m1, m2, m3⟩, h3, h4⟩)
    · obtain ⟨j, hj, ho, e1⟩ := started_preds h1
      simp only [Prod.mk.injEq] at ee e1
      exact absurd e1.1 (hmix e he ee.1.symm j hj ho)
  · simp only [Prod.mk.injEq] at ee
    rcases h4 with h4 | ⟨e', he', k, hk, ee'⟩
    · obtain ⟨j, hj, ho, e1, _⟩ := started_gres h4
      exact absurd e1 (hmix e he ee.1.symm j hj ho)
    · simp only [Prod.mk.injEq] at ee'
      right
      have hown : ∀ q ∈ Q, q.mid = r.mid → q.job = r.job ∧ q.walltime = r.walltime + sec := by
        intro q hq eq
        obtain ⟨d, hd, d1, d2, d3, _⟩ := hp.mold q hq
        have : d = m := nodup_inj hs.molds hd hm (by rw [d1, eq, m1])
        subst this
        exact ⟨nodup_inj hs.jobs (hp.row q hq).1 h3 (by rw [← d2, m2]), by rw [d3, m3]⟩
      obtain ⟨o1, o2⟩ := hown e he ee.1.symm
      obtain ⟨o3, _⟩ := hown e' he' ee'.1.symm
      have : e' = e := pairwise_ids hp.pair he' he (by rw [o1, o3])
      subst this
      exact ⟨e', he, o1, ee.1.symm, ee.2.symm, o2, k, hk, ee'.2⟩

theorem planned_there {s : RS} {sec now : Int} {db x : DB} {done : List Nat} {Q : List EJob} (h0 : ∀ m ∈ db.molds, m.id ≠ 0) (hp : Planned s sec now db done Q x) {e : EJob} (he : e ∈ Q) {k : Nat}
    (hk : k ∈ e.res) : (⟨e.job, e.mid, e.start, e.walltime - sec, s.o2i k⟩ : Row) ∈ join x := by
  obtain ⟨m, hm, m1, m2, m3, _⟩ := hp.mold e he
  have hne : e.mid ≠ 0 := by rw [← m1]; exact h0 m hm
  rw [mem_join]
  refine ⟨(hp.preds _ hne).2 (Or.inr ⟨e, he, rfl⟩), ⟨m, by rw [hp.molds]; exact hm, m1, m2, by dsimp only; omega⟩, by rw [hp.jobs]; exact (hp.row e he).1, (hp.gres _ hne).2 (Or.inr ⟨e, he, k, hk, rfl⟩)⟩

theorem planned_alike {s : RS} {sec now : Int} {db x : DB} {done : List Nat} {Q : List EJob} (hs : Sound db) (h0 : ∀ m ∈ db.molds, m.id ≠ 0) (hp : Planned s sec now db done Q x) :
    Alike (join x) := by
  have hw : ∀ e ∈ Q, ¬ Occupies e.job := by
    intro e he ho
    unfold Occupies at ho
    rw [(hp.row e he).2.1] at ho
    simp at ho
  intro a ha b hb e
  rcases planned_row hs h0 hp ha with ⟨a1, a2, a3, a4, ⟨ma, hma, a5, a6⟩, _⟩ | ⟨qa, hqa, a1, a2, a3, a4, _⟩
  · rcases planned_row hs h0 hp hb with ⟨b1, b2, b3, b4, ⟨mb, hmb, b5, b6⟩, _⟩ | ⟨qb, hqb, b1, b2, b3, b4, _⟩
    · have hj : a.job = b.job := nodup_inj hs.jobs a1 b1 e
      have : ma = mb := nodup_inj hs.molds hma hmb (by rw [a5, b5, hj])
      exact ⟨hj, by rw [a4, b4, hj], by rw [← a6, ← b6, this]⟩
    · have hj : a.job = b.job := nodup_inj hs.jobs a1 (by rw [← b1]; exact (hp.row qb hqb).1) e
      rw [hj, ← b1] at a2
      exact absurd a2 (hw qb hqb)
  · rcases planned_row hs h0 hp hb with ⟨b1, b2, b3, b4, ⟨mb, hmb, b5, b6⟩, _⟩ | ⟨qb, hqb, b1, b2, b3, b4, _⟩
    · have hj : a.job = b.job := nodup_inj hs.jobs (by rw [← a1]; exact (hp.row qa hqa).1) b1 e
      rw [← hj, ← a1] at b2
      exact absurd b2 (hw qa hqa)
    · have hq : qa = qb := pairwise_ids hp.pair hqa hqb (by rw [a1, b1, e])
      subst hq
      exact ⟨by rw [← a1, ← b1], by rw [← a3, ← b3], by omega⟩

/-- The timeline rebuilt by the scheduler of a queue. -/
theorem child_timeline {s : RS} {sec now : Int} {db x : DB} {done : List Nat} {Q : List EJob} {ctx : Kao.Ctx} {ss : Kao.SlotSet} {js : List Kao.Job} {sets : List (String × Kao.SlotSet)}
    {fb : Bool} (hs : Sound db) (ht : OnTime sec now db) (hsi : Simple db) (hn : Numbered s db) (hnow : now ≤ Kao.maxTime) (h0 : ∀ m ∈ db.molds, m.id ≠ 0)
    (hsu : ∀ j ∈ db.jobs, j.state = "Waiting" → j.suspended = false) (hp : Planned s sec now db done Q x) (hfb : fb = true → ∀ e ∈ Q, ¬ BestEffort e.job)
    (hi : initial noQuotas s now = some (ctx, ss)) (hm : (extract s sec (sortedP (join x))).mapM toJob = some js)
    (hset : (if js = [] then some [("default", ss)] else Kao.setPrev ctx [("default", ss)] js sec now fb false) = some sets) :
    ctx = noQuotas ∧ ∃ s1, sets.lookup "default" = some s1 ∧ Kao.SetOk s1 ∧ s1.begin_ = now ∧ (∀ t k, Free s1 t k → k ∈ s.roids) ∧
      (∀ j ∈ db.jobs, Occupies j → ¬ BestEffort j → ∀ k ∈ s.roids, Holds db j (s.o2i k) → ∀ d ∈ db.molds, d.id = j.mold → ∀ t, now ≤ t →
        t < j.start + (d.walltime + extra sec j) → ¬ Free s1 t k) ∧
      ∀ e ∈ Q, ∀ t, e.start ≤ t → t < e.start + e.walltime → ∀ k ∈ e.res, ¬ Free s1 t k := by
  obtain ⟨rfl, i2, i3, i4, i5, i6, i8, i7⟩ := initial_spec (ctx := noQuotas) rfl hnow (numbered_upto hn) hi
  have hex : ∀ e ∈ Q, extra sec e.job = sec := by
    intro e he
    unfold extra
    rw [hsu _ (hp.row e he).1 (hp.row e he).2.1]
    simp
  have hjobs : ∀ r ∈ join x, r.job ∈ db.jobs := fun r hr => by
    have := ((mem_join _ r).1 hr).2.2.1
    rw [hp.jobs] at this
    exact this
  obtain ⟨p1, p2, p3⟩ := gantt_jobs (planned_alike hs h0 hp) ((numbered_susp hn).imp id (fun h r hr => h _ (hjobs r hr))) hm
  have hflat : ∀ a ∈ js, a.types.lookup "container" = none ∧ a.types.lookup "inner" = none := by
    intro a ha
    obtain ⟨r, hr, hst, _⟩ := p2 a ha
    exact stands_flat hst (hsi _ (hjobs r hr)).2.1 (hsi _ (hjobs r hr)).2.2
  have hplaced : ∀ a ∈ js, Kao.Placed a := by
    intro a ha
    obtain ⟨r, hr, hst, R, hR⟩ := p2 a ha
    refine ⟨_, R, hst.2.1, hR, ?_⟩
    rcases planned_row hs h0 hp hr with ⟨a1, a2, a3, a4, ⟨ma, hma, a5, a6⟩, _⟩ | ⟨q, hq, a1, a2, a3, a4, _⟩
    · have := ((ht _ a1 a2).2.2 ma hma a5).1
      rw [← a6]
      exact this
    · rw [← a1, hex q hq]
      obtain ⟨_, _, _, _, _, h1⟩ := hp.mold q hq
      omega
  refine ⟨rfl, ?_⟩
  have hsub : ∃ s1, sets.lookup "default" = some s1 ∧ Kao.Sub (js.filter (Kao.kept fb false)) ss s1 := by
    split at hset
    · rename_i hnil
      simp only [Option.some.injEq] at hset
      subst hset
      subst hnil
      exact ⟨ss, by simp, ⟨i2.1, rfl, rfl, rfl, Kao.IdsKept.refl _, fun _ _ h => h, by simp, fun _ _ h _ => h, fun _ => Kao.KeepsBegins.refl _⟩⟩
    · exact Kao.setPrev_sub hflat i2.1 p1 hplaced (by simp) hset
  obtain ⟨s1, l1, l2⟩ := hsub
  refine ⟨s1, l1, l2.setOk i2, l2.begin_.trans i3, fun t k h => i4 t k (l2.free t k h), ?_, ?_⟩
  · intro j hj ho hbe k hk hh d hd hdm t h1 h2
    have hkk := numbered_inverse hn k hk
    obtain ⟨q1, q2⟩ := started_mem hj ho (ht j hj ho).1 hkk hh
    obtain ⟨m, hm', e1, e2⟩ := hs.own j hj ho
    have hdm' : d = m := nodup_inj hs.molds hd hm' (by rw [hdm, e1])
    subst hdm'
    have hne : j.mold ≠ 0 := by rw [← hdm]; exact h0 d hd
    have hr : (⟨j, j.mold, j.start, d.walltime, s.o2i k⟩ : Row) ∈ join x := by
      rw [mem_join]
      exact ⟨(hp.preds _ hne).2 (Or.inl q1), ⟨d, by rw [hp.molds]; exact hd, hdm, e2, rfl⟩, by rw [hp.jobs]; exact hj, (hp.gres _ hne).2 (Or.inl q2)⟩
    obtain ⟨a, ha, hst, R, hR, hkR⟩ := p3 _ hr
    have hab : a.hasType "besteffort" = false := by
      rw [Bool.eq_false_iff]
      exact fun h => hbe ((stands_be hst).1 h)
    refine l2.taken a (List.mem_filter.2 ⟨ha, ?_⟩) _ _ hst.2.1 hR k (by rw [← hkk]; exact hkR) t (by rw [hst.1]; exact (ht j hj ho).2.1.trans h1) (by rw [hst.1]; exact h2)
    unfold Kao.kept
    rw [hab]
    simp
  · intro e he t h1 h2 k hk
    obtain ⟨a, ha, hst, R, hR, hkR⟩ := p3 _ (planned_there h0 hp he hk)
    have hkk := numbered_inverse hn k (hp.alive e he k hk)
    refine l2.taken a (List.mem_filter.2 ⟨ha, ?_⟩) _ _ hst.2.1 hR k (by rw [← hkk]; exact hkR) t (by rw [hst.1]; exact h1) (by
      rw [hst.1]
      show t < e.start + (e.walltime - sec + extra sec e.job)
      rw [hex e he]
      omega)
    have hbe := stands_be hst
    dsimp only at hbe
    unfold Kao.kept
    cases hb : a.hasType "besteffort" with
    | false => simp
    | true =>
      cases fb with
      | false => simp
      | true => exact absurd (hbe.1 hb) (hfb rfl e he)

theorem toE_mem {db : DB} {a : Kao.Job} {e : EJob} (h : toE db a = some e) : e.job ∈ db.jobs := by
  unfold toE at h
  simp only [Option.map_eq_some_iff] at h
  obtain ⟨l, hl, rfl⟩ := h
  exact List.mem_of_find?_eq_some hl

/-- What `saveRows` writes, but for the row of the default values. -/
theorem saveRows_mem {s : RS} {db db' : DB} {l : List EJob} (h : saveRows s db l = some db') :
    db'.jobs = db.jobs ∧ db'.molds = db.molds ∧ db'.assigned = db.assigned ∧
      (∀ p : Nat × Int, p.1 ≠ 0 → (p ∈ db'.preds ↔ p ∈ db.preds ∨ ∃ e ∈ l.filter (fun e => decide (-1 < e.start)), p = (e.mid, e.start))) ∧
      ∀ g : Nat × Nat, g.1 ≠ 0 → (g ∈ db'.gres ↔ g ∈ db.gres ∨ ∃ e ∈ l.filter (fun e => decide (-1 < e.start)), ∃ k ∈ e.res, g = (e.mid, s.o2i k)) := by
  unfold saveRows at h
  split at h
  · rename_i hnil
    simp only [Option.some.injEq] at h
    subst h; subst hnil
    simp
  · split at h
    · rename_i hall
      have hno : l.filter (fun e => decide (-1 < e.start)) = [] := by
        rw [List.filter_eq_nil_iff]
        intro e he hlt
        rw [List.all_eq_true] at hall
        have := hall e he
        rw [decide_eq_true_eq] at this hlt
        omega
      split at h
      · simp at h
      · simp only [Option.some.injEq] at h
        subst h
        rw [hno]
        refine ⟨rfl, rfl, rfl, ?_, ?_⟩
        · rintro ⟨a, b⟩ hne
          dsimp only at hne
          simp [hne]
        · rintro ⟨a, b⟩ hne
          dsimp only at hne
          simp [hne]
    · simp only [Option.some.injEq] at h
      subst h
      refine ⟨rfl, rfl, rfl, ?_, ?_⟩
      · intro p _
        unfold saveAssigns
        simp only [List.mem_append, List.mem_map]
        constructor
        · rintro (h | ⟨e, he, rfl⟩)
          · exact Or.inl h
          · exact Or.inr ⟨e, he, rfl⟩
        · rintro (h | ⟨e, he, rfl⟩)
          · exact Or.inl h
          · exact Or.inr ⟨e, he, rfl⟩
      · intro g _
        unfold saveAssigns
        simp only [List.mem_append, List.mem_flatMap, List.mem_map]
        constructor
        · rintro (h | ⟨e, he, k, hk, rfl⟩)
          · exact Or.inl h
          · exact Or.inr ⟨e, he, k, hk, rfl⟩
        · rintro (h | ⟨e, he, k, hk, rfl⟩)
          · exact Or.inl h
          · exact Or.inr ⟨e, he, k, hk, rfl⟩

/-- The scheduler of a queue adds jobs which overlap neither what runs nor what is planned. -/
theorem child_step {quotas : Bool} {s : RS} {sec now : Int} {db x x' : DB} {done : List Nat} {Q : List EJob} {q : Que} (hs : Sound db) (ht : OnTime sec now db) (hsi : Simple db)
    (hn : Numbered s db) (hnow : now ≤ Kao.maxTime) (h0 : ∀ m ∈ db.molds, m.id ≠ 0) (hsu : ∀ j ∈ db.jobs, j.state = "Waiting" → j.suspended = false)
    (hwt : ∀ w ∈ q.waiting, ∀ m ∈ w.mlds, ∀ d ∈ db.molds, d.id = m.id → m.walltime = d.walltime + sec) (hg : Given (alone [q]) db) (hp : Planned s sec now db done Q x)
    (hbe : q.name ≠ "besteffort" → ∀ e ∈ Q, ¬ BestEffort e.job) (hnew : ∀ w ∈ q.waiting, w.id ∉ done) (h : child quotas s sec now q x = some x') :
    ∃ N, Planned s sec now db (q.waiting.map (·.id) ++ done) (Q ++ N) x' ∧ ∀ e ∈ N, ∃ w ∈ q.waiting, w.id = e.job.id := by
  unfold child at h
  split at h
  · simp at h
  split at h
  · rename_i hnil
    simp only [Option.some.injEq] at h
    subst h
    refine ⟨[], ?_, by simp⟩
    rw [hnil, List.append_nil]
    exact hp
  cases hi : initial noQuotas s now with
  | none => rw [hi] at h; simp at h
  | some y =>
    obtain ⟨ctx, ss⟩ := y
    rw [hi] at h
    dsimp only at h
    cases hm : (extract s sec (sortedP (join x))).mapM toJob with
    | none => rw [hm] at h; simp at h
    | some js =>
      rw [hm] at h
      dsimp only at h
      cases hset : (if js = [] then some [("default", ss)] else Kao.setPrev ctx [("default", ss)] js sec now (decide (q.name ≠ "besteffort")) false) with
      | none => rw [hset] at h; simp at h
      | some sets =>
        rw [hset] at h
        dsimp only at h
        obtain ⟨rfl, s1, b1, b2, b3, b4, b5, b6⟩ := child_timeline hs ht hsi hn hnow h0 hsu hp (fun h => hbe (of_decide_eq_true h)) hi hm hset
        have hwn : (q.waiting.map (·.id)).Nodup := by have := hg.once; simpa [alone] using this
        have hmem : (⟨[q.name], q.waiting, []⟩ : Grp) ∈ alone [q] := by simp [alone]
        cases hsch : Kao.schedule (hyOf s) sec (q.waiting.map (·.id)) ⟨noQuotas, sets, q.waiting⟩ with
        | none => rw [hsch] at h; simp at h
        | some st =>
          rw [hsch] at h
          dsimp only at h
          have hinit : Kao.PassInv "default" s1 [] ⟨noQuotas, sets, q.waiting⟩ := ⟨⟨s1, b1, b2, rfl, rfl, fun _ _ h => h, by simp⟩, by simp⟩
          have hfr : ∀ jid ∈ q.waiting.map (·.id), ∀ job, (⟨noQuotas, sets, q.waiting⟩ : Kao.Sched).job? jid = some job → Kao.Fresh "default" job ∧ job.setName = "default" := by
            intro jid _ job hj
            have hm : job ∈ q.waiting := List.mem_of_find?_eq_some hj
            obtain ⟨p1, p2, p3, p4, p5⟩ := hg.plain _ hmem job hm
            refine ⟨⟨⟨p1, p2⟩, p3, ?_⟩, ?_⟩
            · rintro ⟨v, hv, _⟩
              rw [p4] at hv
              simp at hv
            · unfold Kao.Job.setName; rw [p5]; rfl
          obtain ⟨o1, o2, ⟨ids', o3, o4⟩, _, o5⟩ := Kao.schedule_outcome _ [] _ st hinit hwn (by simp) hfr rfl hsch
          dsimp only at o1 o2
          have hstn : (st.jobs.map (·.id)).Nodup := by rw [o2]; exact hwn
          have hout : ∀ a ∈ st.jobs, ∃ w ∈ q.waiting, w.id = a.id ∧ a.setName = "default" ∧ Kao.Outcome s1 (hyOf s) w.mlds a := by
            intro a ha
            have hid : a.id ∈ q.waiting.map (·.id) := by rw [← o2]; exact List.mem_map.2 ⟨a, ha, rfl⟩
            obtain ⟨w, hw, q1, q2, _, q3⟩ := o5 a.id hid a (job?_of_mem hstn ha)
            have hm : w ∈ q.waiting := List.mem_of_find?_eq_some hw
            refine ⟨w, hm, Kao.job?_id hw, ?_, q3⟩
            rw [Kao.setName_congr q1]
            exact (hfr a.id hid w hw).2
          obtain ⟨s2, c1, c2, c3, c4, c5, c6⟩ := o4.set_
          obtain ⟨v1, v2, v3, v4, v5⟩ := saveRows_mem h
          generalize hND : (st.jobs.filterMap (toE x)).filter (fun e => decide (-1 < e.start)) = N at v4 v5
          have hN : ∀ e ∈ N, ∃ a ∈ st.jobs, toE x a = some e ∧ ∃ w ∈ q.waiting, w.id = e.job.id ∧ ∃ m ∈ w.mlds, ∃ R, e.mid = m.id ∧
              a.walltime = some m.walltime ∧ 0 < m.walltime ∧ a.resSet = some R ∧ now ≤ e.start ∧ e.start = a.startTime ∧ a.setName = "default" ∧ a.id ∈ ids' ∧
              (∀ k, k ∈ e.res ↔ k ∈ R) ∧ e.walltime = m.walltime ∧ ∀ k ∈ R, FreeDuring s1 e.start m.walltime k := by
            intro e he
            rw [← hND] at he
            obtain ⟨he1, he2⟩ := List.mem_filter.1 he
            obtain ⟨a, ha, hae⟩ := List.mem_filterMap.1 he1
            obtain ⟨t1, t2, t3, t4, t5⟩ := toE_spec hae
            obtain ⟨w, hw, w1, w2, w3⟩ := hout a ha
            rcases w3 with w3 | ⟨m, hm, R, m1, m2, m3, m4, ⟨u1, u2, u3, _⟩⟩
            · rw [decide_eq_true_eq, t3, w3] at he2
              omega
            · refine ⟨a, ha, hae, w, hw, by rw [t1, w1], m, hm, R, by rw [t2, m1]; rfl, m2, m3, m4, by rw [t3, ← b3]; exact u2, t3, w2, ?_, ?_, by rw [t5, m2]; rfl, by rw [t3]; exact u3⟩
              · rw [o3]
                left
                rw [← o2]
                exact List.mem_map.2 ⟨a, ha, rfl⟩
              · intro k
                rw [t4, m4, Option.getD_some, mem_procList]
          refine ⟨N, ⟨v1.trans hp.jobs, v2.trans hp.molds, v3.trans hp.assigned, ?_, ?_, ?_, ?_, ?_, ?_, ?_⟩, ?_⟩
          · intro p hne
            rw [v4 p hne, hp.preds p hne, or_assoc]
            refine or_congr_right ⟨?_, ?_⟩
            · rintro (⟨e, he, r⟩ | ⟨e, he, r⟩)
              · exact ⟨e, List.mem_append_left _ he, r⟩
              · exact ⟨e, List.mem_append_right _ he, r⟩
            · rintro ⟨e, he, r⟩
              rcases List.mem_append.1 he with he | he
              · exact Or.inl ⟨e, he, r⟩
              · exact Or.inr ⟨e, he, r⟩
          · intro g hne
            rw [v5 g hne, hp.gres g hne, or_assoc]
            refine or_congr_right ⟨?_, ?_⟩
            · rintro (⟨e, he, r⟩ | ⟨e, he, r⟩)
              · exact ⟨e, List.mem_append_left _ he, r⟩
              · exact ⟨e, List.mem_append_right _ he, r⟩
            · rintro ⟨e, he, r⟩
              rcases List.mem_append.1 he with he | he
              · exact Or.inl ⟨e, he, r⟩
              · exact Or.inr ⟨e, he, r⟩
          · intro e he
            rcases List.mem_append.1 he with he | he
            · obtain ⟨r1, r2, r3, r4⟩ := hp.row e he
              exact ⟨r1, r2, r3, List.mem_append_right _ r4⟩
            · obtain ⟨a, ha, hae, w, hw, n0, m, hm, R, n1, n2, n3, n4, n5, _⟩ := hN e he
              have hje : e.job ∈ db.jobs := by rw [← hp.jobs]; exact toE_mem hae
              obtain ⟨j, hj, j1, j2⟩ := hg.row _ hmem w hw
              have : j = e.job := nodup_inj hs.jobs hj hje (by rw [j1, n0])
              exact ⟨hje, by rw [← this]; exact j2, n5, List.mem_append_left _ (List.mem_map.2 ⟨w, hw, n0⟩)⟩
          · intro e he
            rcases List.mem_append.1 he with he | he
            · exact hp.mold e he
            · obtain ⟨a, ha, hae, w, hw, n0, m, hm, R, n1, n2, n3, n4, n5, n6, n7, n8, n9, nw, n10⟩ := hN e he
              obtain ⟨d, hd, d1, d2⟩ := hg.molds _ hmem w hw m hm
              exact ⟨d, hd, by rw [d1, n1], by rw [d2, n0], by rw [nw]; exact hwt w hw m hm d hd d1, by omega⟩
          · intro e he k hk
            rcases List.mem_append.1 he with he | he
            · exact hp.alive e he k hk
            · obtain ⟨a, ha, hae, w, hw, n0, m, hm, R, n1, n2, n3, n4, n5, n6, n7, n8, n9, nw, n10⟩ := hN e he
              exact b4 _ _ (n10 k ((n9 k).1 hk) e.start (le_refl _) (by omega))
          · intro e he j hj ho hnb k hk hh d hd hdm
            rcases List.mem_append.1 he with he | he
            · exact hp.apart e he j hj ho hnb k hk hh d hd hdm
            · obtain ⟨a, ha, hae, w, hw, n0, m, hm, R, n1, n2, n3, n4, n5, n6, n7, n8, n9, nw, n10⟩ := hN e he
              have hf := n10 k ((n9 k).1 hk) e.start (le_refl _) (by omega)
              by_contra hlt
              exact b5 j hj ho hnb k (b4 _ _ hf) hh d hd hdm e.start n5 (by omega) hf
          · rw [List.pairwise_append]
            refine ⟨hp.pair, ?_, ?_⟩
            · have hpw : st.jobs.Pairwise (fun a b => a.id ≠ b.id) := List.pairwise_map.1 hstn
              have hpw2 : st.jobs.Pairwise (fun a b => ∀ e, toE x a = some e → ∀ f, toE x b = some f → e ∈ N → f ∈ N →
                  e.job.id ≠ f.job.id ∧ ∀ t, e.start ≤ t → t < e.start + e.walltime → f.start ≤ t → t < f.start + f.walltime → ∀ k ∈ e.res, k ∉ f.res) := by
                refine hpw.imp_of_mem ?_
                intro a b ha hb hab e hae f hbf heN hfN
                obtain ⟨t1, t2, t3, t4, t5⟩ := toE_spec hae
                obtain ⟨u1, u2, u3, u4, u5⟩ := toE_spec hbf
                refine ⟨by rw [t1, u1]; exact hab, fun t h1 h2 h3 h4 k hk hk2 => ?_⟩
                obtain ⟨a', ha', q', w, hw, _, m, hm, R, _, n2, n3, n4, n5, n6, n7, n8, n9, nw, n10⟩ := hN e heN
                obtain ⟨b', hb', q2, w', hw', _, m', hm', R', _, p2, p3, p4, p5, p6, p7, p8, p9, pw, p10⟩ := hN f hfN
                have ea : a' = a := nodup_inj hstn ha' ha ((toE_spec q').1.symm.trans t1)
                have eb : b' = b := nodup_inj hstn hb' hb ((toE_spec q2).1.symm.trans u1)
                subst ea; subst eb
                have hdis := o4.pair a'.id n8 b'.id p8 hab a' b' (job?_of_mem hstn ha) (job?_of_mem hstn hb) n7 p7 _ _ _ _ n2 p2 n4 p4 t (by omega) (by omega)
                  (by omega) (by omega)
                exact Finset.disjoint_left.1 hdis ((n9 k).1 hk) ((p9 k).1 hk2)
              have h3 : (st.jobs.filterMap (toE x)).Pairwise (fun e f => e ∈ N → f ∈ N →
                  e.job.id ≠ f.job.id ∧ ∀ t, e.start ≤ t → t < e.start + e.walltime → f.start ≤ t → t < f.start + f.walltime → ∀ k ∈ e.res, k ∉ f.res) := by
                rw [List.pairwise_filterMap]
                exact hpw2.imp (fun h e he f hf => h e he f hf)
              have h4 := h3.sublist (List.filter_sublist (p := fun e => decide (-1 < e.start)))
              rw [hND] at h4
              exact h4.imp_of_mem (fun ha hb hab => hab ha hb)
            · intro e he f hf
              obtain ⟨a, ha, _, w, hw, n0, m, hm, R, n1, n2, n3, n4, n5, n6, n7, n8, n9, nw, n10⟩ := hN f hf
              refine ⟨fun e1 => hnew w hw (by rw [n0, ← e1]; exact (hp.row e he).2.2.2), fun t h1 h2 h3 h4 k hk hk2 => ?_⟩
              exact b6 e he t h1 h2 k hk (n10 k ((n9 k).1 hk2) t (by omega) (by omega))
          · intro e he
            obtain ⟨a, ha, _, w, hw, n0, _⟩ := hN e he
            exact ⟨w, hw, n0⟩

theorem planned_more {s : RS} {sec now : Int} {db x : DB} {done : List Nat} {Q : List EJob} (l : List Nat) (hp : Planned s sec now db done Q x) : Planned s sec now db (l ++ done) Q x :=
  ⟨hp.jobs, hp.molds, hp.assigned, hp.preds, hp.gres, fun e he => ⟨(hp.row e he).1, (hp.row e he).2.1, (hp.row e he).2.2.1, List.mem_append_right _ (hp.row e he).2.2.2⟩, hp.mold, hp.alive,
    hp.apart, hp.pair⟩

/-- One queue, whatever happens to its scheduler. -/
theorem queue_step {cf : Conf} {quotas : Bool} {ctx : Kao.Ctx} {s : RS} {now : Int} {db : DB} {x x' : DB × List (String × Kao.SlotSet) × List String} {done : List Nat} {Q : List EJob} {q : Que}
    (hs : Sound db) (ht : OnTime cf.sec now db) (hsi : Simple db)
    (hn : Numbered s db) (hnow : now ≤ Kao.maxTime) (h0 : ∀ m ∈ db.molds, m.id ≠ 0) (hsu : ∀ j ∈ db.jobs, j.state = "Waiting" → j.suspended = false)
    (hwt : ∀ w ∈ q.waiting, ∀ m ∈ w.mlds, ∀ d ∈ db.molds, d.id = m.id → m.walltime = d.walltime + cf.sec) (hg : Given (alone [q]) db) (hp : Planned s cf.sec now db done Q x.1)
    (hbe : q.name ≠ "besteffort" → ∀ e ∈ Q, ¬ BestEffort e.job) (hnew : ∀ w ∈ q.waiting, w.id ∉ done) (h : extQueue cf quotas ctx s now q x = some x') :
    (∃ N, Planned s cf.sec now db (q.waiting.map (·.id) ++ done) (Q ++ N) x'.1 ∧ ∀ e ∈ N, ∃ w ∈ q.waiting, w.id = e.job.id) ∧
      x'.1 = (process (child quotas s cf.sec now q x.1) x.1 q.fate).1 ∧
      x'.2.2 = if (process (child quotas s cf.sec now q x.1) x.1 q.fate).2 = some 0 then x.2.2 else x.2.2 ++ [q.name] := by
  have hproc : ∃ N, Planned s cf.sec now db (q.waiting.map (·.id) ++ done) (Q ++ N) (process (child quotas s cf.sec now q x.1) x.1 q.fate).1 ∧ ∀ e ∈ N, ∃ w ∈ q.waiting, w.id = e.job.id := by
    have hkeep : ∃ N, Planned s cf.sec now db (q.waiting.map (·.id) ++ done) (Q ++ N) x.1 ∧ ∀ e ∈ N, ∃ w ∈ q.waiting, w.id = e.job.id :=
      ⟨[], by rw [List.append_nil]; exact planned_more _ hp, by simp⟩
    cases hc : child quotas s cf.sec now q x.1 with
    | none =>
      cases q.fate with
      | missing => exact hkeep
      | run => exact hkeep
      | signal n late => cases late <;> exact hkeep
    | some y =>
      have hstep := child_step hs ht hsi hn hnow h0 hsu hwt hg hp hbe hnew hc
      cases q.fate with
      | missing => exact hkeep
      | run => exact hstep
      | signal n late =>
        cases late with
        | false => exact hkeep
        | true => exact hstep
  unfold extQueue at h
  dsimp only at h
  generalize process (child quotas s cf.sec now q x.1) x.1 q.fate = y at *
  have hstop : (if mustStop y.2 then x.2.2 ++ [q.name] else x.2.2) = if y.2 = some 0 then x.2.2 else x.2.2 ++ [q.name] := by
    by_cases hc : y.2 = some 0
    · rw [if_pos hc, (goes_on_iff y.2).2 hc]
      simp
    · rw [if_neg hc, if_pos]
      cases hm : mustStop y.2 with
      | true => rfl
      | false => exact absurd ((goes_on_iff _).1 hm) hc
  obtain ⟨N, hN, hNw⟩ := hproc
  split at h
  · simp at h
  · split at h
    · simp at h
    · rw [waitingResv_simple hsi hN.jobs] at h
      simp only [waitingARs, Option.map_some, Option.some.injEq] at h
      subst h
      exact ⟨⟨N, hN, hNw⟩, rfl, hstop⟩

theorem given_first {q : Que} {qs : List Que} {db : DB} (h : Given (alone (q :: qs)) db) : Given (alone [q]) db ∧ Given (alone qs) db ∧ ∀ q' ∈ qs, ∀ w' ∈ q'.waiting, ∀ w ∈ q.waiting, w.id ≠ w'.id := by
  obtain ⟨h1, h2, h3⟩ := given_cons (g := ⟨[q.name], q.waiting, []⟩) (gs := alone qs) h
  exact ⟨h1, h2, fun q' hq' w' hw' w hw => h3 ⟨[q'.name], q'.waiting, []⟩ (List.mem_map.2 ⟨q', hq', rfl⟩) w' hw' w hw⟩

theorem beLast_tail {q : Que} {qs : List Que} {db : DB} (h : BestEffortLast (q :: qs) db) : BestEffortLast qs db :=
  ⟨fun pre a post e => h.1 (q :: pre) a post (by rw [e]; rfl), fun a ha => h.2 a (List.mem_cons_of_mem _ ha)⟩

theorem queues_spec {cf : Conf} {quotas : Bool} {ctx : Kao.Ctx} {s : RS} {now : Int} {db : DB} (hs : Sound db) (ht : OnTime cf.sec now db) (hsi : Simple db)
    (hn : Numbered s db) (hnow : now ≤ Kao.maxTime) : ∀ (qs : List Que) (done : List Nat) (Q : List EJob) (x x' : DB × List (String × Kao.SlotSet) × List String),
    Planned s cf.sec now db done Q x.1 → Given (alone qs) db → BestEffortLast qs db → Timed cf.sec qs db → (qs ≠ [] → ∀ e ∈ Q, ¬ BestEffort e.job) → (∀ q ∈ qs, ∀ w ∈ q.waiting, w.id ∉ done) →
    extQueues cf quotas ctx s now qs x = some x' →
    ∃ done' N, Planned s cf.sec now db done' (Q ++ N) x'.1 ∧ ∀ e ∈ N, ∃ q ∈ qs, ∃ w ∈ q.waiting, w.id = e.job.id
  | [], done, Q, x, x', hp, _, _, _, _, _, h => by
    simp only [extQueues, Option.some.injEq] at h
    subst h
    exact ⟨done, [], by rw [List.append_nil]; exact hp, by simp⟩
  | q :: qs, done, Q, x, x', hp, hg, hb, htm, hbe, hnew, h => by
    unfold extQueues at h
    cases h1 : extQueue cf quotas ctx s now q x with
    | none => rw [h1] at h; simp at h
    | some x1 =>
      rw [h1, Option.bind_some] at h
      obtain ⟨g1, g2, g3⟩ := given_first hg
      obtain ⟨⟨N, i1, i2⟩, _⟩ := queue_step hs ht hsi hn hnow htm.numbers htm.suspended (htm.walltime q (by simp)) g1 hp (fun _ => hbe (by simp)) (hnew q (by simp)) h1
      obtain ⟨done', N', k1, k2⟩ := queues_spec hs ht hsi hn hnow qs _ (Q ++ N) x1 x' i1 g2 (beLast_tail hb)
        ⟨fun q' hq' => htm.walltime q' (List.mem_cons_of_mem _ hq'), htm.suspended, htm.numbers⟩
        (fun hne e he => by
          rcases List.mem_append.1 he with he | he
          · exact hbe (by simp) e he
          · obtain ⟨w, hw, ww⟩ := i2 e he
            by_cases hq : q.name = "besteffort"
            · exact absurd (hb.1 [] q qs rfl hq) hne
            · exact hb.2 q (by simp) hq w hw e.job (i1.row e (List.mem_append_right _ he)).1 ww.symm)
        (fun q' hq' w' hw' => by
          rw [List.mem_append, not_or]
          refine ⟨?_, hnew q' (List.mem_cons_of_mem _ hq') w' hw'⟩
          intro hm
          obtain ⟨w, hw, e⟩ := List.mem_map.1 hm
          exact g3 q' hq' w' hw' w hw e) h
      refine ⟨done', N ++ N', by rw [← List.append_assoc]; exact k1, ?_⟩
      intro e he
      rcases List.mem_append.1 he with he | he
      · obtain ⟨w, hw, ww⟩ := i2 e he
        exact ⟨q, by simp, w, hw, ww⟩
      · obtain ⟨q', hq', r⟩ := k2 e he
        exact ⟨q', List.mem_cons_of_mem _ hq', r⟩

end Oar.Round
