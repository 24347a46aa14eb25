import Verif.RoundExtProps
import Verif.RoundPromise

/-!
# Rounds in external mode (C102): what the users see
-/

namespace Oar.Round

open Oar.Launch Oar.ResSet Oar.JobTypes Oar.Tools Oar.Queues Spec Oar.Kao.Spec

/-! ## The whole round -/

theorem planned_start (s : RS) (sec now : Int) (db : DB) : Planned s sec now db [] [] (started s db) :=
  ⟨rfl, rfl, rfl, by simp, by simp, by simp, by simp, by simp, by simp, List.Pairwise.nil⟩

/-- The parts of a regular round in external mode. -/
theorem ext_facts {cf : Conf} {quotas : Bool} {ctx : Kao.Ctx} {s : RS} {ord : List Row → List Row} {qs : List Que} {now : Int} {db db' : DB} {code : Int} {stopped : List String}
    (hord : ∀ l, (ord l).Perm l) (hr : Regular cf ctx s (alone qs) now db) (hbe : BestEffortLast qs db) (htm : Timed cf.sec qs db)
    (h : extRound cf quotas ctx s ord qs now db = some (db', code, stopped)) :
    ∃ db2 sets sets2 sched js ss0 done Q, Begun s cf.sec now db sets sched js ss0 ∧ extQueues cf quotas ctx s now qs (started s db, sets, []) = some (db2, sets2, stopped) ∧
      (Planned s cf.sec now db done Q db2 ∧ ∀ e ∈ Q, ∃ q ∈ qs, ∃ w ∈ q.waiting, w.id = e.job.id) ∧
      (∀ r, r ∈ dueRows cf ord now db2 ↔ r ∈ join db2 ∧ r.start ≤ now + cf.kill ∧ r.job.state = "Waiting") ∧
      ((code = 0 ∧ toKill (extract s cf.sec (dueRows cf ord now db2)) (beMap sched) (ridMap s (dueRows cf ord now db2)) [] = some [] ∧
        db' = ((extract s cf.sec (dueRows cf ord now db2)).filter (ready s now)).foldl (launchOne now) db2 ∧
        ∀ e ∈ (extract s cf.sec (dueRows cf ord now db2)).filter (ready s now), ∃ q0 ∈ Q, Due s now db db2 (dueRows cf ord now db2) e q0) ∨
      (code = 2 ∧ ∃ k ks, db' = (k :: ks).foldl killJob db2)) := by
  obtain ⟨hs, ht, hsi, hg, hn, hcal, hnow⟩ := hr
  unfold extRound at h
  cases hi : init ctx s cf.sec now db with
  | none => rw [hi] at h; simp at h
  | some y =>
    obtain ⟨db1, c1, sets, sched, js⟩ := y
    rw [hi] at h
    dsimp only at h
    obtain ⟨rfl, rfl, hp, hwho, ss0, hb⟩ := init_spec hs ht hsi hn hcal hnow.2 hi
    cases hgr : extQueues cf quotas c1 s now qs (started s db, sets, []) with
    | none => rw [hgr] at h; simp at h
    | some z =>
      obtain ⟨db2, sets2, st2⟩ := z
      rw [hgr] at h
      dsimp only at h
      cases hl : launchRound s cf.sec now (ord ((join db2).filter (toLaunchRow (now + cf.kill)))) sched db2 with
      | none => rw [hl] at h; simp at h
      | some w =>
        obtain ⟨wd, wc⟩ := w
        rw [hl] at h
        simp only [Option.map_some, Option.some.injEq, Prod.mk.injEq] at h
        obtain ⟨rfl, rfl, rfl⟩ := h
        obtain ⟨done, Q, q, hfrom⟩ := queues_spec hs ht hsi hn hnow.2 qs [] [] _ _ (planned_start s cf.sec now db) hg hbe htm (by simp) (by simp) hgr
        rw [List.nil_append] at q
        dsimp only at q
        have hrows : ∀ r, r ∈ dueRows cf ord now db2 ↔ r ∈ join db2 ∧ r.start ≤ now + cf.kill ∧ r.job.state = "Waiting" := by
          intro r
          unfold dueRows
          rw [(hord _).mem_iff, List.mem_filter]
          simp [toLaunchRow]
        change launchRound s cf.sec now (dueRows cf ord now db2) sched db2 = _ at hl
        refine ⟨db2, sets, sets2, sched, js, ss0, done, Q, hb, hgr, ⟨q, hfrom⟩, hrows, ?_⟩
        rcases launchRound_cases _ _ _ _ _ _ _ _ hl with ⟨hc, hkill, hd⟩ | ⟨hc, k, ks, _, hd⟩
        · left
          refine ⟨hc, hkill, hd, ?_⟩
          intro e he
          obtain ⟨he1, he2⟩ := List.mem_filter.1 he
          obtain ⟨r0, hr0, e1, e2, e3, _⟩ := extract_sound s cf.sec _ (fun r hr => by rw [((hrows r).1 hr).2.2]; decide) e he1
          obtain ⟨j1, j2, j3⟩ := (hrows r0).1 hr0
          have hstart : e.start ≤ now := by
            unfold ready at he2
            rw [Bool.and_eq_true, decide_eq_true_eq] at he2
            exact he2.1
          have hq : ∀ r ∈ join db2, r.job.state = "Waiting" → ∃ e ∈ Q, e.job = r.job ∧ e.mid = r.mid ∧ e.start = r.start ∧ e.walltime = r.walltime + cf.sec ∧ ∃ k ∈ e.res, r.rid = s.o2i k := by
            intro r hr hw
            rcases planned_row hs htm.numbers q hr with ⟨_, ho, _⟩ | hq
            · unfold Occupies at ho
              rw [hw] at ho
              simp at ho
            · exact hq
          obtain ⟨q0, hq0, q1, q2, q3, q4, _⟩ := hq r0 j1 j3
          obtain ⟨p1, ⟨m, hm, m1, m2, m3⟩, p3, p4⟩ := (mem_join _ r0).1 j1
          have hm' := hm
          rw [q.molds] at hm'
          have p3' := p3
          rw [q.jobs] at p3'
          have hne : e.mid ≠ 0 := by rw [e2, ← m1]; exact htm.numbers m hm'
          refine ⟨q0, hq0, by rw [q2, e2], by rw [q1, e1], by rw [q3, ← e3]; exact hstart, ⟨r0.job, p3', by rw [e1], j3⟩, ⟨m, hm', by rw [m1, e2], by rw [m2, e1]⟩, ?_, ?_⟩
          · intro r hrr
            have hj : (⟨r0.job, r0.mid, r0.start, r0.walltime, r⟩ : Row) ∈ join db2 := by
              rw [mem_join]
              exact ⟨p1, ⟨m, hm, m1, m2, m3⟩, p3, by rw [e2] at hrr; exact hrr⟩
            obtain ⟨q', hq', f1, f2, f3, f4, k, hk, f5⟩ := hq _ hj j3
            have : q' = q0 := pairwise_ids q.pair hq' hq0 (by rw [f1, q1])
            subst this
            exact ⟨k, hk, f5, _, (hrows _).2 ⟨hj, j2, j3⟩, by rw [e1], rfl⟩
          · intro k hk
            have := (q.gres (q0.mid, s.o2i k) (by rw [q2, ← e2]; exact hne)).2 (Or.inr ⟨q0, hq0, k, hk, rfl⟩)
            rw [q2, ← e2] at this
            exact this
        · exact Or.inr ⟨hc, k, ks, hd⟩

/-- **C102** (what holds). A regular round in external mode keeps the resources exclusive, whatever happens to the schedulers of the queues: missing program, exception, signal before or
after the writing of the Gantt, quotas. -/
theorem ext_exclusive_partial (cf : Conf) (quotas : Bool) (ctx : Kao.Ctx) (s : RS) (ord : List Row → List Row) (qs : List Que) (now : Int) (db db' : DB) (code : Int) (stopped : List String)
    (hord : ∀ l, (ord l).Perm l) (hr : Regular cf ctx s (alone qs) now db) (hbe : BestEffortLast qs db) (htm : Timed cf.sec qs db) (hx : Exclusive db)
    (h : extRound cf quotas ctx s ord qs now db = some (db', code, stopped)) : Exclusive db' := by
  obtain ⟨db2, sets, sets2, sched, js, ss0, done, Q, hb, _, ⟨q, _⟩, hrows, hcase⟩ := ext_facts hord hr hbe htm h
  obtain ⟨hs, ht, hsi, hg, hn, hcal, hnow⟩ := hr
  have qjobs : db2.jobs = db.jobs := q.jobs
  have qass : db2.assigned = db.assigned := q.assigned
  rcases hcase with ⟨_, hkill, hd, hL⟩ | ⟨_, k, ks, hd⟩
  · generalize hR : dueRows cf ord now db2 = rows at *
    generalize hLd : (extract s cf.sec rows).filter (ready s now) = L at hL hd
    have hcl : ∀ j ∈ db'.jobs, Occupies j → ∀ r, Holds db' j r →
        (j ∈ db.jobs ∧ Holds db j r) ∨ ∃ q0 ∈ Q, q0.job.id = j.id ∧ q0.start ≤ now ∧ ∃ k ∈ q0.res, r = s.o2i k ∧ ∃ row ∈ rows, row.rid = r := by
      intro j hj ho r hh
      rw [hd] at hj
      unfold Holds at hh
      rw [hd, launchAll_assigned, qass] at hh
      rcases launchAll_jobs now L db2 j hj with ⟨k1, k2⟩ | ⟨e, he, j0, hj0, k1, k2⟩
      · rw [qjobs] at k1
        rcases hh with hh | ⟨_, e, he, k3⟩
        · exact Or.inl ⟨k1, hh⟩
        · obtain ⟨q0, hq0, _, _, _, _, ⟨m, hm, m1, m2⟩, _⟩ := hL e he
          obtain ⟨m', hm', f1, f2⟩ := hs.own j k1 ho
          have : m = m' := nodup_inj hs.molds hm hm' (by rw [m1, f1]; exact k3.symm)
          exact absurd (by rw [← m2, this, f2]) (k2 e he)
      · rw [qjobs] at hj0
        obtain ⟨q0, hq0, g1, g2, g3, ⟨jw, hjw, w1, w2⟩, ⟨m, hm, m1, m2⟩, g4, _⟩ := hL e he
        have hmold : j.mold = e.mid := by rw [k2]; rfl
        have hid : j.id = j0.id := by rw [k2]; rfl
        rcases hh with hh | ⟨hh, _⟩
        · rw [hmold, ← m1] at hh
          exact absurd hh (hs.fresh jw hjw w2 m hm (by rw [m2, w1]) r)
        · rw [hmold] at hh
          obtain ⟨k, c1, c2, row, c3, _, c4⟩ := g4 r hh
          exact Or.inr ⟨q0, hq0, by rw [g2, k1, hid], g3, k, c1, c2, row, c3, c4⟩
    have hmix : ∀ a ∈ db.jobs, Occupies a → ∀ r, Holds db a r → ∀ q0 ∈ Q, q0.start ≤ now → ∀ k ∈ q0.res, r = s.o2i k → (∃ row ∈ rows, row.rid = r) → False := by
      intro a ha ho r hh q0 hq0 hle k hk e ⟨row, hrow, hrid⟩
      have hro := q.alive q0 hq0 k hk
      rw [e] at hh
      by_cases hbe : BestEffort a
      · have hl := (beMap_lookup sched k).2 a ((hb.busy a ha ho k hro hh).1 hbe)
        have hkey := (ridMap_keys s _ [] k).2 (Or.inl ⟨row, hrow, by rw [hrid, e]; exact numbered_inverse hn k hro⟩)
        obtain ⟨v, hv⟩ := mem_lookup _ _ hkey
        obtain ⟨b, hbl⟩ := Option.isSome_iff_exists.1 hl
        have := (toKill_empty _ _ _ hkill).2 (k, v) hv b hbl
        simp at this
      · obtain ⟨d, hd, d1, _⟩ := hs.own a ha ho
        have h1 := q.apart q0 hq0 a ha ho hbe k hk hh d hd d1
        have h2 := ((ht a ha ho).2.2 d hd d1).2 hbe
        omega
    intro a ha b hb' hab hoa hob r h1 h2
    rcases hcl a ha hoa r h1 with ⟨a1, a2⟩ | ⟨qa, ha1, ha2, ha3, ka, ha4, ha5, ha6⟩
    · rcases hcl b hb' hob r h2 with ⟨b1, b2⟩ | ⟨qb, hb1, hb2, hb3, kb, hb4, hb5, hb6⟩
      · exact hx a a1 b b1 hab hoa hob r a2 b2
      · exact hmix a a1 hoa r a2 qb hb1 hb3 kb hb4 hb5 hb6
    · rcases hcl b hb' hob r h2 with ⟨b1, b2⟩ | ⟨qb, hb1, hb2, hb3, kb, hb4, hb5, hb6⟩
      · exact hmix b b1 hob r b2 qa ha1 ha3 ka ha4 ha5 ha6
      · obtain ⟨_, _, _, _, _, pa⟩ := q.mold qa ha1
        obtain ⟨_, _, _, _, _, pb⟩ := q.mold qb hb1
        have la := (q.row qa ha1).2.2.1
        have lb := (q.row qb hb1).2.2.1
        have hd1 := pairwise_disjoint q.pair ha1 hb1 (by rw [ha2, hb2]; exact hab) ha3 (by omega) hb3 (by omega) ka ha4
        have e1 := numbered_inverse hn ka (q.alive qa ha1 ka ha4)
        have e2 := numbered_inverse hn kb (q.alive qb hb1 kb hb4)
        rw [← ha5, hb5, e2] at e1
        rw [e1] at hb4
        exact hd1 hb4
  · obtain ⟨g1, g2⟩ := killAll_same (k :: ks) db2
    rw [← hd] at g1 g2
    rw [qjobs] at g1
    rw [qass] at g2
    intro a ha b hb' hab hoa hob r h1 h2
    rw [g1] at ha hb'
    unfold Holds at h1 h2
    rw [g2] at h1 h2
    exact hx a ha b hb' hab hoa hob r h1 h2

/-- **C102** (what holds), for every history of rounds in internal and in external mode. -/
theorem ext_history_exclusive_partial (db : DB) (h : ExtHistory db) : Exclusive db := by
  induction h with
  | start db h => exact fun a ha _ _ _ hoa => absurd hoa (h a ha)
  | other db db' _ hb ih =>
    intro a ha b hb' hab hoa hob r h1 h2
    obtain ⟨a0, a1, a2, a3, a4⟩ := hb a ha hoa
    obtain ⟨b0, b1, b2, b3, b4⟩ := hb b hb' hob
    exact ih a0 a1 b0 b1 (by rw [a2, b2]; exact hab) a3 b3 r (a4 r h1) (b4 r h2)
  | inside cf ctx s ord gs now db db' code _ hord hr hrun ih => exact round_exclusive_partial cf ctx s ord gs now db db' code hord hr ih hrun
  | round cf quotas ctx s ord qs now db db' code stopped _ hord hr hbe ht hrun ih =>
    exact ext_exclusive_partial cf quotas ctx s ord qs now db db' code stopped hord hr hbe ht ih hrun

/-! ## The Gantt -/

theorem due_waiting {s : RS} {sec : Int} {db db2 : DB} {rows : List Row} (hj : db2.jobs = db.jobs) (hsi : Simple db)
    (hrows : ∀ r ∈ rows, r ∈ join db2 ∧ r.job.state = "Waiting") : ∀ e ∈ extract s sec rows, e.job ∈ db.jobs ∧ e.job.reservation ≠ "Scheduled" := by
  intro e he
  obtain ⟨r0, hr0, e1, _⟩ := extract_sound s sec _ (fun r hr => by rw [(hrows r hr).2]; decide) e he
  have := ((mem_join _ r0).1 (hrows r0 hr0).1).2.2.1
  rw [hj] at this
  rw [e1]
  exact ⟨this, (hsi _ this).1⟩

/-- **C102** (what holds). After a regular round in external mode, the windows planned for the waiting jobs do not overlap: two of them with a common resource follow each other. -/
theorem ext_disjoint_partial (cf : Conf) (quotas : Bool) (ctx : Kao.Ctx) (s : RS) (ord : List Row → List Row) (qs : List Que) (now : Int) (db db' : DB) (code : Int) (stopped : List String)
    (hord : ∀ l, (ord l).Perm l) (hr : Regular cf ctx s (alone qs) now db) (hbe : BestEffortLast qs db) (htm : Timed cf.sec qs db)
    (h : extRound cf quotas ctx s ord qs now db = some (db', code, stopped)) : Disjoint cf.sec db' := by
  obtain ⟨db2, sets, sets2, sched, js, ss0, done, Q, hb, _, ⟨q, _⟩, hrows, hcase⟩ := ext_facts hord hr hbe htm h
  obtain ⟨hs, ht, hsi, hg, hn, hcal, hnow⟩ := hr
  -- a row of a waiting job was in the Gantt before the launching
  have hback : ∀ r ∈ join db', r.job.state = "Waiting" → r ∈ join db2 := by
    rcases hcase with ⟨_, _, hd, _⟩ | ⟨_, k, ks, hd⟩
    · intro r hr hw
      have hL : ∀ e ∈ (extract s cf.sec (dueRows cf ord now db2)).filter (ready s now), e.job.reservation ≠ "Scheduled" := fun e he =>
        (due_waiting q.jobs hsi (fun r hr => ⟨((hrows r).1 hr).1, ((hrows r).1 hr).2.2⟩) e (List.mem_filter.1 he).1).2
      rw [mem_join] at hr ⊢
      rw [hd, launchAll_preds now _ _ hL, launchAll_molds now _ _ hL, launchAll_gres] at hr
      refine ⟨hr.1, hr.2.1, ?_, hr.2.2.2⟩
      rcases launchAll_jobs now _ db2 r.job hr.2.2.1 with ⟨k1, _⟩ | ⟨e, he, j0, hj0, k1, k2⟩
      · exact k1
      · rw [k2] at hw
        exact absurd hw (by show ¬ ("toLaunch" = "Waiting"); decide)
    · intro r hr _
      have hk : ∀ (l : List Nat) (d : DB), join (l.foldl killJob d) = join d := by
        intro l
        induction l with
        | nil => intro d; rfl
        | cons k l ih => intro d; rw [List.foldl_cons, ih]; rfl
      rw [hd, hk] at hr
      exact hr
  intro a ha b hb' hab hrid wa wb
  have hq : ∀ r ∈ join db2, r.job.state = "Waiting" → ∃ e ∈ Q, e.job = r.job ∧ e.mid = r.mid ∧ e.start = r.start ∧ e.walltime = r.walltime + cf.sec ∧ ∃ k ∈ e.res, r.rid = s.o2i k := by
    intro r hr hw
    rcases planned_row hs htm.numbers q hr with ⟨_, ho, _⟩ | hq
    · unfold Occupies at ho
      rw [hw] at ho
      simp at ho
    · exact hq
  obtain ⟨ea, hea, a1, a2, a3, a4, ka, hka, a5⟩ := hq a (hback a ha wa) wa
  obtain ⟨eb, heb, b1, b2, b3, b4, kb, hkb, b5⟩ := hq b (hback b hb' wb) wb
  obtain ⟨_, _, _, _, _, pa⟩ := q.mold ea hea
  obtain ⟨_, _, _, _, _, pb⟩ := q.mold eb heb
  have e1 := numbered_inverse hn ka (q.alive ea hea ka hka)
  have e2 := numbered_inverse hn kb (q.alive eb heb kb hkb)
  rw [← a5, hrid, b5, e2] at e1
  subst e1
  by_contra hcon
  rw [not_or] at hcon
  obtain ⟨h1, h2⟩ := hcon
  have := pairwise_disjoint q.pair hea heb (by rw [a1, b1]; exact hab) (t := max ea.start eb.start) (by omega) (by omega) (by omega) (by omega) kb hka
  exact this hkb

/-! ## A scheduler that fails -/

/-- What the meta-scheduler does after the process of a queue. -/
def follow (cf : Conf) (ctx : Kao.Ctx) (s : RS) (now : Int) (name : String) (d : DB) (sets : List (String × Kao.SlotSet)) : Option (DB × List (String × Kao.SlotSet)) :=
  match (extract s cf.sec (sortedP ((join d).filter (fun r => r.job.queue == name && r.job.state == "Waiting" && r.job.reservation == "None")))).mapM toJob with
  | none => none
  | some js =>
    match (if js = [] then some sets else Kao.setPrev ctx sets js cf.sec now (decide (name ≠ "besteffort")) false) with
    | none => none
    | some sets => (waitingARs s cf.timeout now d (waitingResv s cf.sec name d)).map (fun db => (db, sets))

theorem extQueue_eq (cf : Conf) (quotas : Bool) (ctx : Kao.Ctx) (s : RS) (now : Int) (q : Que) (x : DB × List (String × Kao.SlotSet) × List String) :
    extQueue cf quotas ctx s now q x = (follow cf ctx s now q.name (process (child quotas s cf.sec now q x.1) x.1 q.fate).1 x.2.1).map
      (fun z => (z.1, z.2, if (process (child quotas s cf.sec now q x.1) x.1 q.fate).2 = some 0 then x.2.2 else x.2.2 ++ [q.name])) := by
  unfold extQueue follow
  dsimp only
  generalize process (child quotas s cf.sec now q x.1) x.1 q.fate = y
  have hstop : (if mustStop y.2 then x.2.2 ++ [q.name] else x.2.2) = if y.2 = some 0 then x.2.2 else x.2.2 ++ [q.name] := by
    by_cases hc : y.2 = some 0
    · rw [if_pos hc, (goes_on_iff y.2).2 hc]
      simp
    · rw [if_neg hc, if_pos]
      cases hm : mustStop y.2 with
      | true => rfl
      | false => exact absurd ((goes_on_iff _).1 hm) hc
  rw [hstop]
  cases (extract s cf.sec (sortedP ((join y.1).filter (fun r => r.job.queue == q.name && r.job.state == "Waiting" && r.job.reservation == "None")))).mapM toJob with
  | none => rfl
  | some js =>
    dsimp only
    cases (if js = [] then some x.2.1 else Kao.setPrev ctx x.2.1 js cf.sec now (decide (q.name ≠ "besteffort")) false) with
    | none => rfl
    | some sets =>
      dsimp only
      cases waitingARs s cf.timeout now y.1 (waitingResv s cf.sec q.name y.1) with
      | none => rfl
      | some db => rfl

theorem extQueue_st (cf : Conf) (quotas : Bool) (ctx : Kao.Ctx) (s : RS) (now : Int) (q : Que) (d : DB) (sets : List (String × Kao.SlotSet)) (st : List String) :
    extQueue cf quotas ctx s now q (d, sets, st) = (extQueue cf quotas ctx s now q (d, sets, [])).map (fun y => (y.1, y.2.1, st ++ y.2.2)) := by
  rw [extQueue_eq, extQueue_eq, Option.map_map]
  congr 1
  funext z
  dsimp only [Function.comp]
  split <;> simp

theorem extQueues_st (cf : Conf) (quotas : Bool) (ctx : Kao.Ctx) (s : RS) (now : Int) : ∀ (qs : List Que) (d : DB) (sets : List (String × Kao.SlotSet)) (st : List String),
    extQueues cf quotas ctx s now qs (d, sets, st) = (extQueues cf quotas ctx s now qs (d, sets, [])).map (fun y => (y.1, y.2.1, st ++ y.2.2))
  | [], d, sets, st => by simp [extQueues]
  | q :: qs, d, sets, st => by
    unfold extQueues
    rw [extQueue_st]
    cases extQueue cf quotas ctx s now q (d, sets, []) with
    | none => rfl
    | some y =>
      obtain ⟨y1, y2, y3⟩ := y
      simp only [Option.map_some, Option.bind_some]
      rw [extQueues_st cf quotas ctx s now qs y1 y2 (st ++ y3), extQueues_st cf quotas ctx s now qs y1 y2 y3]
      cases extQueues cf quotas ctx s now qs (y1, y2, []) with
      | none => rfl
      | some z => simp [List.append_assoc]

theorem extQueues_append (cf : Conf) (quotas : Bool) (ctx : Kao.Ctx) (s : RS) (now : Int) : ∀ (pre post : List Que) (x : DB × List (String × Kao.SlotSet) × List String),
    extQueues cf quotas ctx s now (pre ++ post) x = (extQueues cf quotas ctx s now pre x).bind (extQueues cf quotas ctx s now post)
  | [], post, x => by simp [extQueues]
  | q :: pre, post, x => by
    show (extQueue cf quotas ctx s now q x).bind (extQueues cf quotas ctx s now (pre ++ post)) = ((extQueue cf quotas ctx s now q x).bind (extQueues cf quotas ctx s now pre)).bind _
    cases extQueue cf quotas ctx s now q x with
    | none => rfl
    | some y =>
      simp only [Option.bind_some]
      exact extQueues_append cf quotas ctx s now pre post y

/-- The return code is 0 exactly when the scheduler succeeds. -/
theorem process_ok (cf : Conf) (quotas : Bool) (s : RS) (now : Int) (q : Que) (d : DB) :
    (process (child quotas s cf.sec now q d) d q.fate).2 = some 0 ↔ Succeeds cf quotas s now q d := by
  unfold Succeeds
  generalize child quotas s cf.sec now q d = r
  cases q.fate with
  | missing => simp [process]
  | run => cases r <;> simp [process]
  | signal n late =>
    simp only [process, Option.some.injEq, reduceCtorEq, false_and, iff_false]
    omega

theorem process_fails {cf : Conf} {quotas : Bool} {s : RS} {now : Int} {q : Que} {d : DB}
    (h : q.fate = .missing ∨ (∃ n, q.fate = .signal n false) ∨ child quotas s cf.sec now q d = none) :
    (process (child quotas s cf.sec now q d) d q.fate).1 = d ∧ (process (child quotas s cf.sec now q d) d q.fate).2 ≠ some 0 := by
  rw [Ne, process_ok]
  unfold Succeeds
  rcases h with h | ⟨n, h⟩ | h
  · rw [h]; exact ⟨rfl, by simp⟩
  · rw [h]; exact ⟨rfl, by simp⟩
  · rw [h]
    refine ⟨?_, by simp⟩
    cases q.fate with
    | missing => rfl
    | run => rfl
    | signal n late => cases late <;> rfl

theorem extQueue_fails {cf : Conf} {quotas : Bool} {ctx : Kao.Ctx} {s : RS} {now : Int} {q : Que} {d : DB} (sets : List (String × Kao.SlotSet))
    (h : q.fate = .missing ∨ (∃ n, q.fate = .signal n false) ∨ child quotas s cf.sec now q d = none) :
    extQueue cf quotas ctx s now q (d, sets, []) = (follow cf ctx s now q.name d sets).map (fun z => (z.1, z.2, [q.name])) ∧
      ∃ st, (st = [] ∨ st = [q.name]) ∧ extQueue cf quotas ctx s now (emptied q) (d, sets, []) = (follow cf ctx s now q.name d sets).map (fun z => (z.1, z.2, st)) := by
  obtain ⟨h1, h2⟩ := process_fails h
  have h3 : (process (child quotas s cf.sec now (emptied q) d) d (emptied q).fate).1 = d := by cases quotas <;> rfl
  refine ⟨?_, if (process (child quotas s cf.sec now (emptied q) d) d (emptied q).fate).2 = some 0 then [] else [q.name], ?_, ?_⟩
  · rw [extQueue_eq]
    dsimp only
    rw [h1, if_neg h2]
    rfl
  · split <;> simp
  · rw [extQueue_eq]
    dsimp only
    rw [h3]
    rfl

/-- **C102.** A scheduler that fails (missing program, exception, signal before the writing) does not disturb the other queues: the round, its exit code and the tables are those of a round in which the
queue has no waiting job; its queue is stopped. In internal mode an exception of the scheduler ends the round for all the queues (C49, C98). -/
theorem failure_isolated (cf : Conf) (quotas : Bool) (ctx : Kao.Ctx) (s : RS) (ord : List Row → List Row) (pre post : List Que) (q : Que) (now : Int) (db : DB)
    (hf : Fails cf quotas ctx s pre now db q) :
    (extRound cf quotas ctx s ord (pre ++ q :: post) now db).map (fun y => (y.1, y.2.1)) = (extRound cf quotas ctx s ord (pre ++ emptied q :: post) now db).map (fun y => (y.1, y.2.1)) ∧
      ∀ y y', extRound cf quotas ctx s ord (pre ++ q :: post) now db = some y → extRound cf quotas ctx s ord (pre ++ emptied q :: post) now db = some y' →
        ∀ n, n ∈ y.2.2 ↔ n = q.name ∨ n ∈ y'.2.2 := by
  unfold extRound
  cases hi : init ctx s cf.sec now db with
  | none => simp
  | some a =>
    obtain ⟨db1, ctx1, sets, sched, js⟩ := a
    dsimp only
    rw [extQueues_append, extQueues_append]
    cases hp : extQueues cf quotas ctx1 s now pre (db1, sets, []) with
    | none => simp
    | some b =>
      obtain ⟨d, sets1, st1⟩ := b
      rw [Option.bind_some, Option.bind_some]
      have hd : q.fate = .missing ∨ (∃ n, q.fate = .signal n false) ∨ child quotas s cf.sec now q d = none :=
        hf.imp id (fun h => h.imp id (fun h => h d ⟨db1, ctx1, sets, sched, js, (sets1, st1), hi, hp⟩))
      obtain ⟨f1, st, f2, f3⟩ := extQueue_fails (ctx := ctx1) sets1 hd
      unfold extQueues
      rw [extQueue_st, extQueue_st cf quotas ctx1 s now (emptied q), f1, f3]
      cases follow cf ctx1 s now q.name d sets1 with
      | none => simp
      | some z =>
        obtain ⟨z1, z2⟩ := z
        simp only [Option.map_some, Option.bind_some]
        rw [extQueues_st cf quotas ctx1 s now post z1 z2 (st1 ++ [q.name]), extQueues_st cf quotas ctx1 s now post z1 z2 (st1 ++ st)]
        cases extQueues cf quotas ctx1 s now post (z1, z2, []) with
        | none => simp
        | some v =>
          obtain ⟨v1, v2, v3⟩ := v
          simp only [Option.map_some]
          cases launchRound s cf.sec now (ord ((join v1).filter (toLaunchRow (now + cf.kill)))) sched v1 with
          | none => simp
          | some w =>
            simp only [Option.map_some, Option.some.injEq]
            refine ⟨trivial, ?_⟩
            rintro y y' rfl rfl n
            rcases f2 with rfl | rfl
            · simp only [List.mem_append, List.mem_singleton, List.append_nil]
              constructor
              · rintro ((h | h) | h)
                · exact Or.inr (Or.inl h)
                · exact Or.inl h
                · exact Or.inr (Or.inr h)
              · rintro (h | h | h)
                · exact Or.inl (Or.inr h)
                · exact Or.inl (Or.inl h)
                · exact Or.inr h
            · simp only [List.mem_append, List.mem_singleton]
              constructor
              · exact Or.inr
              · rintro (h | h)
                · exact Or.inl (Or.inr h)
                · exact h

theorem extQueues_stopped (cf : Conf) (quotas : Bool) (ctx : Kao.Ctx) (s : RS) (now : Int) : ∀ (qs : List Que) (x x' : DB × List (String × Kao.SlotSet) × List String),
    extQueues cf quotas ctx s now qs x = some x' → ∀ n, n ∈ x'.2.2 ↔ n ∈ x.2.2 ∨
      ∃ pre q post y, qs = pre ++ q :: post ∧ q.name = n ∧ extQueues cf quotas ctx s now pre x = some y ∧ ¬ Succeeds cf quotas s now q y.1
  | [], x, x', h, n => by
    simp only [extQueues, Option.some.injEq] at h
    subst h
    simp
  | q :: qs, x, x', h, n => by
    unfold extQueues at h
    cases h1 : extQueue cf quotas ctx s now q x with
    | none => rw [h1] at h; simp at h
    | some x1 =>
      rw [h1, Option.bind_some] at h
      rw [extQueues_stopped cf quotas ctx s now qs x1 x' h n]
      have hst : x1.2.2 = if (process (child quotas s cf.sec now q x.1) x.1 q.fate).2 = some 0 then x.2.2 else x.2.2 ++ [q.name] := by
        rw [extQueue_eq] at h1
        obtain ⟨z, _, rfl⟩ := Option.map_eq_some_iff.1 h1
        rfl
      have hfirst : n ∈ x1.2.2 ↔ n ∈ x.2.2 ∨ (q.name = n ∧ ¬ Succeeds cf quotas s now q x.1) := by
        rw [hst]
        by_cases hc : (process (child quotas s cf.sec now q x.1) x.1 q.fate).2 = some 0
        · rw [if_pos hc]
          rw [process_ok] at hc
          simp [hc]
        · rw [if_neg hc]
          rw [process_ok] at hc
          rw [List.mem_append, List.mem_singleton]
          simp [hc, eq_comm]
      rw [hfirst, or_assoc]
      refine or_congr_right ?_
      constructor
      · rintro (⟨e, hn⟩ | ⟨pre, q', post, y, rfl, e, hy, hn⟩)
        · exact ⟨[], q, qs, x, rfl, e, rfl, hn⟩
        · refine ⟨q :: pre, q', post, y, rfl, e, ?_, hn⟩
          show (extQueue cf quotas ctx s now q x).bind _ = _
          rw [h1]
          exact hy
      · rintro ⟨pre, q', post, y, e1, e, hy, hn⟩
        cases pre with
        | nil =>
          rw [List.nil_append, List.cons.injEq] at e1
          obtain ⟨rfl, rfl⟩ := e1
          simp only [extQueues, Option.some.injEq] at hy
          subst hy
          exact Or.inl ⟨e, hn⟩
        | cons p pre =>
          rw [List.cons_append, List.cons.injEq] at e1
          obtain ⟨rfl, rfl⟩ := e1
          refine Or.inr ⟨pre, q', post, y, rfl, e, ?_, hn⟩
          have hy' : (extQueue cf quotas ctx s now q x).bind (extQueues cf quotas ctx s now pre) = some y := hy
          rw [h1] at hy'
          exact hy'

/-- **C102.** The queues stopped by a round in external mode are exactly those whose scheduler did not run to its end without exception, on the tables left by the queues before. -/
theorem stopped_iff (cf : Conf) (quotas : Bool) (ctx : Kao.Ctx) (s : RS) (ord : List Row → List Row) (qs : List Que) (now : Int) (db db' : DB) (code : Int) (stopped : List String)
    (h : extRound cf quotas ctx s ord qs now db = some (db', code, stopped)) (n : String) :
    n ∈ stopped ↔ ∃ pre q post x, qs = pre ++ q :: post ∧ q.name = n ∧ Seen cf quotas ctx s pre now db x ∧ ¬ Succeeds cf quotas s now q x := by
  unfold extRound at h
  cases hi : init ctx s cf.sec now db with
  | none => rw [hi] at h; simp at h
  | some a =>
    obtain ⟨db1, ctx1, sets, sched, js⟩ := a
    rw [hi] at h
    dsimp only at h
    cases hq : extQueues cf quotas ctx1 s now qs (db1, sets, []) with
    | none => rw [hq] at h; simp at h
    | some b =>
      obtain ⟨db2, sets2, st2⟩ := b
      rw [hq] at h
      dsimp only at h
      cases hl : launchRound s cf.sec now (ord ((join db2).filter (toLaunchRow (now + cf.kill)))) sched db2 with
      | none => rw [hl] at h; simp at h
      | some w =>
        rw [hl] at h
        simp only [Option.map_some, Option.some.injEq, Prod.mk.injEq] at h
        obtain ⟨_, _, rfl⟩ := h
        have := extQueues_stopped cf quotas ctx1 s now qs _ _ hq n
        dsimp only at this
        rw [this]
        simp only [List.not_mem_nil, false_or]
        constructor
        · rintro ⟨pre, q, post, y, e, e1, hy, hn⟩
          exact ⟨pre, q, post, y.1, e, e1, ⟨db1, ctx1, sets, sched, js, y.2, hi, hy⟩, hn⟩
        · rintro ⟨pre, q, post, x, e, e1, ⟨db1', ctx1', sets', sched', js', y, hi', hy⟩, hn⟩
          rw [hi] at hi'
          simp only [Option.some.injEq, Prod.mk.injEq] at hi'
          obtain ⟨rfl, rfl, rfl, rfl, rfl⟩ := hi'
          exact ⟨pre, q, post, (x, y), e, e1, hy, hn⟩

/-! ## Quotas -/

theorem child_quotas (s : RS) (sec now : Int) (q : Que) (d : DB) : child true s sec now q d = none := rfl

theorem extQueues_pre {cf : Conf} {quotas : Bool} {ctx : Kao.Ctx} {s : RS} {now : Int} {pre post : List Que} {x x' : DB × List (String × Kao.SlotSet) × List String}
    (h : extQueues cf quotas ctx s now (pre ++ post) x = some x') : ∃ y, extQueues cf quotas ctx s now pre x = some y := by
  rw [extQueues_append] at h
  cases hp : extQueues cf quotas ctx s now pre x with
  | none => rw [hp] at h; simp at h
  | some y => exact ⟨y, rfl⟩

/-- **C102** is violated with quotas: when `QUOTAS=yes`, a round in external mode stops all the active queues, whatever their jobs, the quotas and the resources. -/
theorem quotas_stop (cf : Conf) (ctx : Kao.Ctx) (s : RS) (ord : List Row → List Row) (qs : List Que) (now : Int) (db db' : DB) (code : Int) (stopped : List String)
    (h : extRound cf true ctx s ord qs now db = some (db', code, stopped)) : ∀ q ∈ qs, q.name ∈ stopped := by
  intro q hq
  rw [stopped_iff cf true ctx s ord qs now db db' code stopped h]
  obtain ⟨pre, post, rfl⟩ := List.append_of_mem hq
  unfold extRound at h
  cases hi : init ctx s cf.sec now db with
  | none => rw [hi] at h; simp at h
  | some a =>
    obtain ⟨db1, ctx1, sets, sched, js⟩ := a
    rw [hi] at h
    dsimp only at h
    cases hq : extQueues cf true ctx1 s now (pre ++ q :: post) (db1, sets, []) with
    | none => rw [hq] at h; simp at h
    | some b =>
      obtain ⟨y, hy⟩ := extQueues_pre hq
      refine ⟨pre, q, post, y.1, rfl, rfl, ⟨db1, ctx1, sets, sched, js, y.2, hi, hy⟩, ?_⟩
      unfold Succeeds
      rw [child_quotas]
      simp

/-- What `quotas_stop` means for the jobs: no waiting job is launched. -/
theorem quotas_nothing (cf : Conf) (ctx : Kao.Ctx) (s : RS) (ord : List Row → List Row) (qs : List Que) (now : Int) (db db' : DB) (code : Int) (stopped : List String)
    (hord : ∀ l, (ord l).Perm l) (hr : Regular cf ctx s (alone qs) now db) (hbe : BestEffortLast qs db) (htm : Timed cf.sec qs db)
    (h : extRound cf true ctx s ord qs now db = some (db', code, stopped)) : db'.jobs = db.jobs := by
  obtain ⟨db2, sets, sets2, sched, js, ss0, done, Q, hb, hex, ⟨q, _⟩, hrows, hcase⟩ := ext_facts hord hr hbe htm h
  obtain ⟨hs, ht, hsi, hg, hn, hcal, hnow⟩ := hr
  have hsame : ∀ (l : List Que) (x x' : DB × List (String × Kao.SlotSet) × List String), x.1.jobs = db.jobs → extQueues cf true ctx s now l x = some x' → x'.1 = x.1 := by
    intro l
    induction l with
    | nil => intro x x' _ hx; simp only [extQueues, Option.some.injEq] at hx; rw [hx]
    | cons a l ih =>
      intro x x' hj hx
      unfold extQueues at hx
      cases h1 : extQueue cf true ctx s now a x with
      | none => rw [h1] at hx; simp at hx
      | some x1 =>
        rw [h1, Option.bind_some] at hx
        have e : x1.1 = x.1 := by
          rw [extQueue_eq, (process_fails (Or.inr (Or.inr (child_quotas s cf.sec now a x.1)))).1] at h1
          obtain ⟨z, hz, rfl⟩ := Option.map_eq_some_iff.1 h1
          unfold follow at hz
          split at hz
          · simp at hz
          · split at hz
            · simp at hz
            · rw [waitingResv_simple hsi hj] at hz
              simp only [waitingARs, Option.map_some, Option.some.injEq] at hz
              rw [← hz]
        rw [ih x1 x' (by rw [e]; exact hj) hx, e]
  have hdb : db2 = started s db := hsame qs _ _ rfl hex
  subst hdb
  have hno : dueRows cf ord now (started s db) = [] := by
    rw [List.eq_nil_iff_forall_not_mem]
    intro r hr
    obtain ⟨j1, _, j3⟩ := (hrows r).1 hr
    rcases planned_row hs htm.numbers (planned_start s cf.sec now db) j1 with ⟨_, ho, _⟩ | ⟨e, he, _⟩
    · unfold Occupies at ho
      rw [j3] at ho
      simp at ho
    · simp at he
  rcases hcase with ⟨_, _, hd, hL⟩ | ⟨_, k, ks, hd⟩
  · rw [hd]
    have hL0 : (extract s cf.sec (dueRows cf ord now (started s db))).filter (ready s now) = [] := by
      rw [List.eq_nil_iff_forall_not_mem]
      intro e he
      obtain ⟨r0, hr0, _⟩ := extract_sound s cf.sec _ (fun r hr => by rw [((hrows r).1 hr).2.2]; decide) e (List.mem_filter.1 he).1
      rw [hno] at hr0
      simp at hr0
    rw [hL0]
    rfl
  · rw [hd, (killAll_same (k :: ks) _).1]
    rfl

/-! ## Reservations -/

theorem launchAll_keeps (now : Int) : ∀ (L : List EJob) (db : DB) (j : LJob), j ∈ db.jobs → (∀ e ∈ L, e.job.id ≠ j.id) → j ∈ (L.foldl (launchOne now) db).jobs
  | [], _, _, h, _ => h
  | e :: L, db, j, h, hn => by
    rw [List.foldl_cons]
    refine launchAll_keeps now L _ j ?_ (fun e' he' => hn e' (List.mem_cons_of_mem _ he'))
    rw [launchOne_jobs]
    exact List.mem_map.2 ⟨j, h, if_neg (fun e1 => hn e (by simp) e1.symm)⟩

/-- **C102** is violated for the advance reservations: in external mode a reservation to be examined is neither accepted nor refused, whatever the resources; its row stays as it is.
(The schedulers read the waiting jobs without reservation.) -/
theorem reservation_ignored (cf : Conf) (quotas : Bool) (ctx : Kao.Ctx) (s : RS) (ord : List Row → List Row) (qs : List Que) (now : Int) (db db' : DB) (code : Int) (stopped : List String)
    (hord : ∀ l, (ord l).Perm l) (hr : Regular cf ctx s (alone qs) now db) (hbe : BestEffortLast qs db) (htm : Timed cf.sec qs db)
    (hnone : ∀ q ∈ qs, ∀ w ∈ q.waiting, ∀ j ∈ db.jobs, j.id = w.id → j.reservation = "None")
    (h : extRound cf quotas ctx s ord qs now db = some (db', code, stopped)) : ∀ j ∈ db.jobs, j.reservation = "toSchedule" → j ∈ db'.jobs := by
  obtain ⟨db2, sets, sets2, sched, js, ss0, done, Q, hb, hex, ⟨q, hfrom⟩, hrows, hcase⟩ := ext_facts hord hr hbe htm h
  intro j hj hres
  have hj2 : j ∈ db2.jobs := by rw [q.jobs]; exact hj
  rcases hcase with ⟨_, _, hd, hL⟩ | ⟨_, k, ks, hd⟩
  · rw [hd]
    refine launchAll_keeps now _ _ j hj2 ?_
    intro e he e1
    obtain ⟨q0, hq0, g1, g2, _⟩ := hL e he
    obtain ⟨qq, hqq, w, hw, e2⟩ := hfrom q0 hq0
    have := hnone qq hqq w hw j hj (by rw [e2, g2, e1])
    rw [hres] at this
    exact absurd this (by decide)
  · rw [hd, (killAll_same (k :: ks) _).1]
    exact hj2

/-! ## Examples -/

/-- Three queues: `default`, `night` whose scheduler is missing, `besteffort`. Job 2 is best-effort. The durations of the waiting jobs count the security time. -/
def exQ1 : List Que := [⟨"default", [exWait 1 11 560], .run⟩, ⟨"night", [exWait 3 13 80], .missing⟩, ⟨"besteffort", [exBe (exWait 2 12 560)], .run⟩]

def exE0 : DB :=
  ⟨[exJob 1 "Waiting" [] 0 0, exJob 2 "Waiting" [txt "besteffort"] 0 0, exJob 3 "Waiting" [] 0 0, { exJob 4 "Waiting" [] 0 0 with reservation := "toSchedule" }],
   [⟨11, 1, 500⟩, ⟨12, 2, 500⟩, ⟨13, 3, 20⟩, ⟨14, 4, 20⟩], [], [], [], [], [], []⟩

def exExt (quotas : Bool) (qs : List Que) (now : Int) (db : DB) : Option (DB × Int × List String) := extRound { sec := 60 } quotas exCtx exS id qs now db

def exE1 : DB := ((exExt false exQ1 100 exE0).map (·.1)).getD exE0

theorem beLast_of {qs : List Que} {db : DB} (h1 : qs.dropLast.all (fun q => q.name != "besteffort") = true)
    (h2 : ∀ q ∈ qs, q.name ≠ "besteffort" → ∀ w ∈ q.waiting, ∀ j ∈ db.jobs, j.id = w.id → ¬ BestEffort j) : BestEffortLast qs db := by
  refine ⟨?_, h2⟩
  rintro pre q post rfl hq
  by_contra hne
  rw [List.dropLast_append_cons, List.all_append, Bool.and_eq_true] at h1
  cases post with
  | nil => exact hne rfl
  | cons a post =>
    rw [List.dropLast_cons_cons, List.all_cons, hq] at h1
    simp at h1

/-- The hypotheses are met: at 100 the jobs 1 and 2 are launched on two machines, the queue `night` is stopped and its job keeps waiting, the reservation too; all the theorems apply. -/
theorem ext_example : Regular { sec := 60 } exCtx exS (alone exQ1) 100 exE0 ∧ BestEffortLast exQ1 exE0 ∧ Timed 60 exQ1 exE0 ∧ ExtHistory exE1 ∧
    exExt false exQ1 100 exE0 = some (exE1, 0, ["night"]) ∧ exE1.assigned = [(11, 5), (12, 7)] ∧
    exE1.jobs.map (fun j => (j.id, j.state)) = [(1, "toLaunch"), (2, "toLaunch"), (3, "Waiting"), (4, "Waiting")] := by
  have hr : Regular { sec := 60 } exCtx exS (alone exQ1) 100 exE0 :=
    exRegular (by decide +kernel) (by decide +kernel) (by decide +kernel) (by decide +kernel) (by decide +kernel) (by decide +kernel)
      ⟨by decide +kernel, by decide +kernel, by decide +kernel, by decide +kernel, by decide +kernel⟩ (by decide +kernel)
  have hb : BestEffortLast exQ1 exE0 := beLast_of (by decide +kernel) (by decide +kernel)
  have ht : Timed 60 exQ1 exE0 := ⟨by decide +kernel, by decide +kernel, by decide +kernel⟩
  have hrun : exExt false exQ1 100 exE0 = some (exE1, 0, ["night"]) := by decide +kernel
  exact ⟨hr, hb, ht, ExtHistory.round _ _ _ _ id _ _ _ _ _ _ (ExtHistory.start _ (by decide +kernel)) (fun l => List.Perm.refl l) hr hb ht hrun, hrun, by decide +kernel, by decide +kernel⟩

/-- The same with quotas: the three queues are stopped, nothing is launched. -/
theorem ext_quotas_example : (exExt true exQ1 100 exE0).map (fun y => (y.1.jobs, y.2)) = some (exE0.jobs, 0, ["default", "night", "besteffort"]) := by decide +kernel

/-- The queue `besteffort` has a higher priority than `default`. -/
def exQ2 : List Que := [⟨"besteffort", [exBe (exWait 2 12 560)], .run⟩, ⟨"default", [exWait 1 11 560], .run⟩]

/-- **C102** is violated when the queue `besteffort` is not the last one: the scheduler of the next queue does not see the best-effort jobs just planned, and both jobs are launched on the same machine by the same round. -/
theorem besteffort_first_violated : Exclusive exE0 ∧ Regular { sec := 60 } exCtx exS (alone exQ2) 100 exE0 ∧ Timed 60 exQ2 exE0 ∧ ∃ db',
    exExt false exQ2 100 exE0 = some (db', 0, []) ∧ db'.assigned = [(12, 5), (11, 5)] ∧ ¬ Exclusive db' := by
  refine ⟨exclusive_of (by decide +kernel), exRegular (by decide +kernel) (by decide +kernel) (by decide +kernel) (by decide +kernel) (by decide +kernel) (by decide +kernel)
      ⟨by decide +kernel, by decide +kernel, by decide +kernel, by decide +kernel, by decide +kernel⟩ (by decide +kernel), ⟨by decide +kernel, by decide +kernel, by decide +kernel⟩,
    ((exExt false exQ2 100 exE0).map (·.1)).getD exE0, by decide +kernel, by decide +kernel, ?_⟩
  exact not_exclusive (exJob 1 "toLaunch" [] 100 11) (exJob 2 "toLaunch" [txt "besteffort"] 100 12) 5 (by decide +kernel) (by decide +kernel) (by decide +kernel) (by decide +kernel)
    (by decide +kernel) (by decide +kernel) (by decide +kernel)

/-- A job that asks for four machines. -/
def exBig (id mid : Nat) (w : Int) : Kao.Job := { id := id, mlds := [⟨mid, w, [⟨[("id", 4)], {0, 1, 2}⟩]⟩] }

def exQ3 : List Que := [⟨"default", [exBig 1 11 560], .run⟩, ⟨"night", [exBig 3 13 80], .run⟩]

/-- **C102** is violated by two queues whose waiting jobs ask for too much: the second one is stopped, because its scheduler inserts the row of default values a second time. -/
theorem two_idle_violated : (exExt false exQ3 100 exE0).map (fun y => (y.1.jobs, y.2)) = some (exE0.jobs, 0, ["night"]) ∧ ∀ q ∈ exQ3, q.fate = .run := by decide +kernel

end Oar.Round
