import Verif.RoundResv

/-!
# The accepted reservations in the rounds that follow (C125)
-/

namespace Oar.Round

open Oar.Launch Oar.ResSet Oar.JobTypes Oar.Tools Oar.Queues Spec Oar.Kao.Spec

/-- The tables in which a round begins: identifiers unique, a job that occupies resources has one of its own moldables, a date predicted is the start of its job, positive walltimes, a time
spent suspended which is not negative, neither container nor job inside one. -/
structure Begins (db : DB) : Prop where
  jobs : (db.jobs.map (·.id)).Nodup
  molds : (db.molds.map (·.id)).Nodup
  own : ∀ j ∈ db.jobs, Occupies j → ∃ m ∈ db.molds, m.id = j.mold ∧ m.job = j.id
  date : ∀ mid t, (mid, t) ∈ db.preds → ∀ m ∈ db.molds, m.id = mid → ∀ j ∈ db.jobs, j.id = m.job → j.start = t
  walltime : ∀ m ∈ db.molds, 0 < m.walltime
  susp : ∀ j ∈ db.jobs, 0 ≤ j.suspSum
  flat : ∀ j ∈ db.jobs, (tjob j).types.lookup (txt "container") = none ∧ (tjob j).types.lookup (txt "inner") = none

theorem init_tables {ctx ctx' : Kao.Ctx} {s : RS} {sec now : Int} {db db2 : DB} {sets : List (String × Kao.SlotSet)} {sched : List EJob} {js : List Kao.Job}
    (h : init ctx s sec now db = some (db2, ctx', sets, sched, js)) :
    db2 = saveAssigns s (flush (reservationsToKeep db) db) (current s (flush (reservationsToKeep db) db)) := by
  unfold init at h
  dsimp only at h
  split at h
  · simp at h
  split at h
  · simp at h
  split at h
  · simp only [Option.some.injEq, Prod.mk.injEq] at h
    exact h.1.symm
  · rw [Option.map_eq_some_iff] at h
    obtain ⟨_, _, h⟩ := h
    simp only [Prod.mk.injEq] at h
    exact h.1.symm

theorem flush_part (keep : List Nat) (db : DB) : (flush keep db).jobs = db.jobs ∧ (flush keep db).molds = db.molds ∧ (flush keep db).assigned = db.assigned ∧
    ∀ p ∈ (flush keep db).preds, p ∈ db.preds := by
  unfold flush
  split
  · exact ⟨rfl, rfl, rfl, fun p hp => (List.mem_filter.1 hp).1⟩
  · exact ⟨rfl, rfl, rfl, fun p hp => by simp at hp⟩

/-- The tables of a round that has begun: where its predictions come from. -/
theorem init_preds {ctx ctx' : Kao.Ctx} {s : RS} {sec now : Int} {db db2 : DB} {sets : List (String × Kao.SlotSet)} {sched : List EJob} {js : List Kao.Job}
    (h : init ctx s sec now db = some (db2, ctx', sets, sched, js)) :
    db2.jobs = db.jobs ∧ db2.molds = db.molds ∧ ∀ mid t, (mid, t) ∈ db2.preds → (mid, t) ∈ db.preds ∨ ∃ j ∈ db.jobs, Occupies j ∧ j.mold = mid ∧ j.start = t := by
  have e := init_tables h
  obtain ⟨f1, f2, f3, f4⟩ := flush_part (reservationsToKeep db) db
  refine ⟨by rw [e]; exact f1, by rw [e]; exact f2, ?_⟩
  intro mid t hp
  rw [e] at hp
  unfold saveAssigns at hp
  rcases List.mem_append.1 hp with hp | hp
  · exact .inl (f4 _ hp)
  · right
    obtain ⟨x, hx, hx2⟩ := List.mem_map.1 hp
    have hx1 := (List.mem_filter.1 hx).1
    unfold current at hx1
    obtain ⟨j, hj, rfl⟩ := List.mem_map.1 hx1
    obtain ⟨hj1, hj2⟩ := List.mem_filter.1 hj
    rw [f1] at hj1
    simp only [Prod.mk.injEq] at hx2
    refine ⟨j, hj1, ?_, hx2.1, hx2.2⟩
    rw [Bool.and_eq_true] at hj2
    have := hj2.1
    rw [List.contains_iff_mem] at this
    exact this

theorem Begins.begun {ctx ctx' : Kao.Ctx} {s : RS} {sec now : Int} {db db2 : DB} {sets : List (String × Kao.SlotSet)} {sched : List EJob} {js : List Kao.Job}
    (hd : Begins db) (h : init ctx s sec now db = some (db2, ctx', sets, sched, js)) : Begins db2 := by
  obtain ⟨e1, e2, e3⟩ := init_preds h
  refine ⟨by rw [e1]; exact hd.jobs, by rw [e2]; exact hd.molds, by rw [e1, e2]; exact hd.own, ?_, by rw [e2]; exact hd.walltime, by rw [e1]; exact hd.susp, by rw [e1]; exact hd.flat⟩
  rw [e1, e2]
  intro mid t hp m hm hmi j hj hji
  rcases e3 mid t hp with hp | ⟨k, hk, ho, hk2, hk3⟩
  · exact hd.date mid t hp m hm hmi j hj hji
  · obtain ⟨m', hm', g1, g2⟩ := hd.own k hk ho
    have : m' = m := nodup_inj hd.molds hm' hm (by rw [g1, hk2, hmi])
    subst this
    rw [nodup_inj hd.jobs hj hk (by rw [hji, g2]), hk3]

/-- When a round has begun, each resource planned for a job is in use in its timeline during the time planned. -/
theorem init_blocks {ctx ctx' : Kao.Ctx} {s : RS} {sec now : Int} {db db2 : DB} {sets : List (String × Kao.SlotSet)} {sched : List EJob} {js : List Kao.Job}
    (hd : Begins db) (hn : Numbered s db) (hcal : ctx.cal = none) (hnow : now ≤ Kao.maxTime) (hsec : 0 ≤ sec)
    (h : init ctx s sec now db = some (db2, ctx', sets, sched, js)) :
    ∃ ss0, sets.lookup "default" = some ss0 ∧ WF ss0 ∧ ∀ l ∈ db2.jobs, ¬ BestEffort l → ∀ m ∈ db2.molds, m.job = l.id →
      (∀ m' ∈ db2.molds, m'.job = l.id → ∀ t', (m'.id, t') ∈ db2.preds → m'.id = m.id) → ∀ t, (m.id, t) ∈ db2.preds → ∀ k, s.i2o (s.o2i k) = k → (m.id, s.o2i k) ∈ db2.gres →
      ∀ u, t ≤ u → u < t + (m.walltime + sec) → ¬ Free ss0 u k := by
  have hd2 := hd.begun h
  have e := init_tables h
  have e1 := (init_preds h).1
  unfold init at h
  dsimp only at h
  rw [← e] at h
  cases hi : initial ctx s now with
  | none => rw [hi] at h; simp at h
  | some y =>
    obtain ⟨c1, ss⟩ := y
    rw [hi] at h
    dsimp only at h
    obtain ⟨rfl, i2, i3, i4, i5, i6, i8, i7⟩ := initial_spec hcal hnow (numbered_upto hn) hi
    have hrow : ∀ r ∈ sorted (join db2), r.job ∈ db2.jobs ∧ r.start = r.job.start ∧ (r.mid, r.start) ∈ db2.preds ∧
        ∃ m ∈ db2.molds, m.id = r.mid ∧ m.job = r.job.id ∧ m.walltime = r.walltime := by
      intro r hr
      rw [sorted_mem, mem_join] at hr
      obtain ⟨a, ⟨m, hm, b1, b2, b3⟩, c, d⟩ := hr
      exact ⟨c, (hd2.date _ _ a m hm b1 _ c b2.symm).symm, a, m, hm, b1, b2, b3⟩
    have hlex := sorted_lex (join db2)
    have hgr : Grouped (sorted (join db2)) := grouped_of_lex _ (by
      intro a ha b hb e
      rw [nodup_inj hd2.jobs (hrow a ha).1 (hrow b hb).1 e]) hlex
    have hex := extract_grouped' s sec _ hgr ((numbered_susp hn).imp id (fun hss r hr => hss _ (by rw [← e1]; exact (hrow r hr).1)))
    rw [hex] at h
    cases hm : ((runs (sorted (join db2))).map (mkJob s sec)).mapM toJob with
    | none => rw [hm] at h; simp at h
    | some js1 =>
      rw [hm] at h
      dsimp only at h
      obtain ⟨m1, m2, m3⟩ := mapM_toJob _ _ hm
      have hprev : Prev js1 := by
        refine ⟨m3 ?_, ?_, ?_⟩
        · rw [List.pairwise_map]
          have hsl := runs_sublist (sorted (join db2))
          have hp2 := hlex.sublist hsl
          rw [List.pairwise_map] at hp2
          refine hp2.imp_of_mem ?_
          intro a b ha hb hab
          have r1 := (hrow a.1 (runs_sound _ a ha).1).2.1
          have r2 := (hrow b.1 (runs_sound _ b hb).1).2.1
          show a.1.start ≤ b.1.start
          omega
        · intro j hj
          obtain ⟨e, he, he2⟩ := m1 j hj
          obtain ⟨x, hx, rfl⟩ := List.mem_map.1 he
          obtain ⟨g1, _, _, m, hm, _, _, g6⟩ := hrow x.1 (runs_sound _ x hx).1
          obtain ⟨t1, t2, t3, _⟩ := toJob_spec he2
          refine ⟨_, _, t2, t3, ?_⟩
          have w1 := hd2.walltime m hm
          have w2 := hd2.susp _ g1
          show 1 ≤ x.1.walltime + sec + (if x.1.job.suspended then x.1.job.suspSum else 0)
          split <;> omega
        · intro j hj
          obtain ⟨e, he, he2⟩ := m1 j hj
          obtain ⟨x, hx, rfl⟩ := List.mem_map.1 he
          obtain ⟨g1, _⟩ := hrow x.1 (runs_sound _ x hx).1
          obtain ⟨_, _, _, t4⟩ := toJob_spec he2
          obtain ⟨s1, s2⟩ := hd2.flat _ g1
          have c1 := t4 (txt "container")
          have c2 := t4 (txt "inner")
          change j.types.lookup (String.ofList "container".toList) = Option.map String.ofList ((tjob x.1.job).types.lookup (txt "container")) at c1
          change j.types.lookup (String.ofList "inner".toList) = Option.map String.ofList ((tjob x.1.job).types.lookup (txt "inner")) at c2
          rw [s1, String.ofList_toList] at c1
          rw [s2, String.ofList_toList] at c2
          exact ⟨c1, c2⟩
      -- a job with a prediction is there
      have hthere : ∀ l ∈ db2.jobs, ∀ m ∈ db2.molds, m.job = l.id → (∀ m' ∈ db2.molds, m'.job = l.id → ∀ t', (m'.id, t') ∈ db2.preds → m'.id = m.id) →
          ∀ t, (m.id, t) ∈ db2.preds → ∀ k, s.i2o (s.o2i k) = k → (m.id, s.o2i k) ∈ db2.gres →
          ∃ e ∈ (runs (sorted (join db2))).map (mkJob s sec), e.job = l ∧ e.start = t ∧ k ∈ e.res ∧ m.walltime + sec ≤ e.walltime := by
        intro l hl m hmm hml hone t hp k hkk hg
        have hr : (⟨l, m.id, t, m.walltime, s.o2i k⟩ : Row) ∈ sorted (join db2) := by
          rw [sorted_mem, mem_join]
          exact ⟨hp, ⟨m, hmm, rfl, hml, rfl⟩, hl, hg⟩
        obtain ⟨x, hx, x1, x2⟩ := runs_complete _ _ hr
        obtain ⟨g1, g2, g3, m', hm', g4, g5, g6⟩ := hrow x.1 (runs_sound _ x hx).1
        have hxl : x.1.job = l := nodup_inj hd2.jobs g1 hl x1
        have hmm' : m' = m := nodup_inj hd2.molds hm' hmm (hone m' hm' (by rw [g5, hxl]) x.1.start (by rw [g4]; exact g3))
        subst hmm'
        refine ⟨mkJob s sec x, List.mem_map.2 ⟨x, hx, rfl⟩, hxl, ?_, ?_, ?_⟩
        · show x.1.start = t
          rw [g2, hxl]
          exact hd2.date _ _ hp _ hm' rfl l hl hml.symm
        · show k ∈ x.2.map s.i2o
          exact List.mem_map.2 ⟨_, x2, hkk⟩
        · show m'.walltime + sec ≤ x.1.walltime + sec + (if x.1.job.suspended then x.1.job.suspSum else 0)
          have w2 := hd2.susp _ g1
          split <;> omega
      split at h
      · rename_i hnil
        simp only [Option.some.injEq, Prod.mk.injEq] at h
        obtain ⟨_, rfl, rfl, rfl, rfl⟩ := h
        refine ⟨ss, by simp, i2.1, ?_⟩
        intro l hl hb m hmm hml hone t hp k hkk hg
        obtain ⟨e, he, _⟩ := hthere l hl m hmm hml hone t hp k hkk hg
        obtain ⟨a, ha, _⟩ := m2 e he
        rw [hnil] at ha
        simp at ha
      · simp only [Option.map_eq_some_iff, Prod.mk.injEq] at h
        obtain ⟨sets1, h1, _, rfl, rfl, rfl, rfl⟩ := h
        obtain ⟨ss', l1, l2⟩ := Kao.setPrev_sub hprev.flat i2.1 hprev.order hprev.placed (by simp) h1
        refine ⟨ss', l1, l2.wf, ?_⟩
        intro l hl hnb m hmm hml hone t hp k hkk hg u hu1 hu2
        obtain ⟨e, he, q1, q2, q3, q4⟩ := hthere l hl m hmm hml hone t hp k hkk hg
        obtain ⟨a, ha, ha2⟩ := m2 e he
        obtain ⟨t1, t2, t3, t4⟩ := toJob_spec ha2
        refine l2.taken a (List.mem_filter.2 ⟨ha, ?_⟩) _ _ t2 t3 k (List.mem_toFinset.2 q3) u (by rw [t1, q2]; exact hu1) (by rw [t1, q2]; omega)
        have c1 := t4 (txt "besteffort")
        change a.types.lookup (String.ofList "besteffort".toList) = Option.map String.ofList ((tjob e.job).types.lookup (txt "besteffort")) at c1
        rw [String.ofList_toList, q1] at c1
        unfold BestEffort at hnb
        unfold Kao.kept Kao.Job.hasType
        rw [c1]
        cases hl : (tjob l).types.lookup (txt "besteffort") with
        | none => rfl
        | some v => exact absurd (by rw [hl]; rfl) hnb

/-- **C125.** In a round that begins after the answer, an accepted reservation (which is not best-effort, and for which one alternative only has a date) keeps its date and its resources, and
these resources are in use in the timeline of the round during all the time promised: nothing else can be placed there. -/
theorem accepted_blocks {ctx ctx' : Kao.Ctx} {s : RS} {sec now : Int} {db db2 : DB} {sets : List (String × Kao.SlotSet)} {sched : List EJob} {js : List Kao.Job} {j : Kao.Job} {p : Plan}
    (hd : Begins db) (hn : Numbered s db) (hcal : ctx.cal = none) (hnow : now ≤ Kao.maxTime) (hsec : 0 ≤ sec) {l : LJob} {m : Launch.Mold}
    (hm : m ∈ db.molds) (hmi : m.id = firstMold j) (hmj : m.job = j.id) (hmw : p.walltime ≤ m.walltime + sec)
    (hl : l ∈ db.jobs) (hli : l.id = j.id) (hst : l.state = "Waiting" ∨ l.state = "toAckReservation") (hres : l.reservation = "Scheduled") (hnb : ¬ BestEffort l)
    (hone : ∀ m' ∈ db.molds, m'.job = j.id → ∀ t', (m'.id, t') ∈ db.preds → m'.id = m.id)
    (hp : (firstMold j, p.start) ∈ db.preds) (hg : ∀ k ∈ p.res, (firstMold j, s.o2i k) ∈ db.gres) (hin : ∀ k ∈ p.res, k ∈ s.roids)
    (h : init ctx s sec now db = some (db2, ctx', sets, sched, js)) :
    ∃ ss0, sets.lookup "default" = some ss0 ∧ WF ss0 ∧ ∀ k ∈ p.res, (firstMold j, p.start) ∈ db2.preds ∧ (firstMold j, s.o2i k) ∈ db2.gres ∧
      ∀ u, p.start ≤ u → u < p.start + p.walltime → ¬ Free ss0 u k := by
  obtain ⟨ss0, b1, b2, b3⟩ := init_blocks hd hn hcal hnow hsec h
  refine ⟨ss0, b1, b2, fun k hk => ?_⟩
  obtain ⟨a1, a2⟩ := accepted_kept ⟨m, hm, hmi, hmj⟩ ⟨l, hl, hli, hst, hres⟩ (fun e => by rw [e] at hk; simp at hk) hp hg h
  obtain ⟨e1, e2, e3⟩ := init_preds h
  refine ⟨a1, a2 k hk, fun u hu1 hu2 => ?_⟩
  refine b3 l (by rw [e1]; exact hl) hnb m (by rw [e2]; exact hm) (by rw [hmj, hli]) ?_ p.start (by rw [hmi]; exact a1) k (numbered_inverse hn k (hin k hk)) (by rw [hmi]; exact a2 k hk) u hu1 (by omega)
  rw [e2]
  intro m' hm' hj' t' hp'
  rcases e3 _ _ hp' with hp' | ⟨x, hx, ho, hx2, _⟩
  · exact hone m' hm' (by rw [hj', hli]) t' hp'
  · exfalso
    obtain ⟨m2, hm2, g1, g2⟩ := hd.own x hx ho
    have : m2 = m' := nodup_inj hd.molds hm2 hm' (by rw [g1, hx2])
    subst this
    have hxl : x = l := nodup_inj hd.jobs hx hl (by rw [← g2, hj'])
    subst hxl
    unfold Occupies at ho
    rcases hst with hst | hst <;> rw [hst] at ho <;> exact absurd ho (by decide)

/-! ## Example -/

/-- The tables after the answers of `exResv_queue`: the first and the third reservations are accepted. -/
def exNextDb : DB :=
  { exResvDb with
    jobs := [{ exAsk 1 200 with state := "toAckReservation", reservation := "Scheduled" }, { exAsk 2 250 with state := "Error", reservation := "Scheduled" },
      { exAsk 3 100 with state := "Waiting", reservation := "Scheduled" }, { exAsk 4 10 with state := "Error" }]
    preds := [(11, 200), (13, 100)]
    gres := [(11, 5), (11, 7), (13, 5)] }

theorem exNext_planned : Begins exNextDb := by
  refine ⟨by decide, by decide, by decide, ?_, by decide, by decide, by decide⟩
  intro mid t hp
  simp only [exNextDb, List.mem_cons, Prod.mk.injEq, List.not_mem_nil, or_false] at hp
  rcases hp with ⟨rfl, rfl⟩ | ⟨rfl, rfl⟩ <;> decide

/-- The hypotheses are met: in the round at the date 105, the two machines of the reservation 1 are in use from 200 to 299, and one of them before, for the reservation 3. -/
theorem exNext_blocks : ∃ r ss0, init exCtx exS 10 105 exNextDb = some r ∧ r.2.2.1.lookup "default" = some ss0 ∧ (∀ u, 200 ≤ u → u < 300 → ¬ Free ss0 u 0 ∧ ¬ Free ss0 u 1) ∧
    (∀ u, 105 ≤ u → u < 200 → ¬ Free ss0 u 0) := by
  have hi : init exCtx exS 10 105 exNextDb = some ((init exCtx exS 10 105 exNextDb).getD (exNextDb, exCtx, [], [], [])) := some_getD (by decide +kernel)
  have o5 : exS.o2i 0 = 5 := by decide +kernel
  have o7 : exS.o2i 1 = 7 := by decide +kernel
  obtain ⟨ss0, b1, _, b3⟩ := accepted_blocks (j := exResv 1 11 2 200 100) (p := ⟨200, 100, {0, 1}⟩) exNext_planned (exS_numbered _) rfl (by decide) (by decide)
    (l := { exAsk 1 200 with state := "toAckReservation", reservation := "Scheduled" }) (m := ⟨11, 1, 100⟩) (by decide) rfl rfl (by decide) (by decide) rfl (.inr rfl) rfl
    (by unfold BestEffort; decide) (by
      intro m' hm' hj t' _
      simp only [exNextDb, exResvDb, List.mem_cons, List.not_mem_nil, or_false] at hm'
      rcases hm' with rfl | rfl | rfl | rfl <;> first | rfl | exact absurd hj (by decide)) (by decide)
    (by
      intro k hk
      simp only [Finset.mem_insert, Finset.mem_singleton] at hk
      rcases hk with rfl | rfl
      · rw [o5]; decide
      · rw [o7]; decide)
    (by
      intro k hk
      simp only [Finset.mem_insert, Finset.mem_singleton] at hk
      rcases hk with rfl | rfl <;> decide +kernel) hi
  obtain ⟨ss1, d1, _, d3⟩ := accepted_blocks (j := exResv 3 13 1 50 100) (p := ⟨100, 100, {0}⟩) exNext_planned (exS_numbered _) rfl (by decide) (by decide)
    (l := { exAsk 3 100 with state := "Waiting", reservation := "Scheduled" }) (m := ⟨13, 3, 100⟩) (by decide) rfl rfl (by decide) (by decide) rfl (.inl rfl) rfl
    (by unfold BestEffort; decide) (by
      intro m' hm' hj t' _
      simp only [exNextDb, exResvDb, List.mem_cons, List.not_mem_nil, or_false] at hm'
      rcases hm' with rfl | rfl | rfl | rfl <;> first | rfl | exact absurd hj (by decide)) (by decide)
    (by
      intro k hk
      simp only [Finset.mem_singleton] at hk
      subst hk
      rw [o5]; decide)
    (by
      intro k hk
      simp only [Finset.mem_singleton] at hk
      subst hk
      decide +kernel) hi
  rw [b1, Option.some.injEq] at d1
  subst d1
  refine ⟨_, ss0, hi, b1, fun u h1 h2 => ⟨(b3 0 (by decide)).2.2 u h1 (by simpa using h2), (b3 1 (by decide)).2.2 u h1 (by simpa using h2)⟩, fun u h1 h2 => (d3 0 (by decide)).2.2 u (by show (100 : Int) ≤ u; omega) (by simpa using h2)⟩

end Oar.Round
