import Verif.RoundTotal

/-!
# The promise made to the first waiting job (C99)

The date predicted for the first waiting job moves at most one second later from a round to the next one, hence this job cannot starve when the rounds are at least two seconds apart.
-/

namespace Oar.Round

open Oar.Launch Oar.ResSet Oar.JobTypes Oar.Tools Oar.Queues Oar.Round.Spec Oar.Kao.Spec Oar.Hierarchy

theorem launchAll_molds (now : Int) : ∀ (L : List EJob) (db : DB), (∀ e ∈ L, e.job.reservation ≠ "Scheduled") → (L.foldl (launchOne now) db).molds = db.molds
  | [], _, _ => rfl
  | e :: L, db, h => by
    rw [List.foldl_cons, launchAll_molds now L _ (fun e he => h e (List.mem_cons_of_mem _ he))]
    unfold launchOne
    rw [if_neg (fun hc => h e (by simp) hc.1)]
    rfl

theorem killAll_molds : ∀ (l : List Nat) (db : DB), (l.foldl killJob db).molds = db.molds
  | [], _ => rfl
  | k :: l, db => by
    rw [List.foldl_cons, killAll_molds l (killJob db k)]
    rfl

/-- After a regular round, where a predicted job is expected: resources that answer its request, usable, which the other jobs leave before that date (but the best-effort ones). -/
theorem round_apart {cf : Conf} {ctx : Kao.Ctx} {susp labels : List String} {rs : List Res} {s : RS} {ord : List Row → List Row} {gs : List Grp} {now : Int} {db db' : DB} {code : Int}
    (hids : (rs.map Res.id).Nodup) (hbuild : build susp labels rs = some s) (hord : ∀ l, (ord l).Perm l) (hr : Regular cf ctx s gs now db) (hsec : Secured cf.sec gs db)
    (h : round cf ctx s ord gs now db = some (db', code)) {g : Grp} (hgm : g ∈ gs) {w : Kao.Job} (hwg : w ∈ g.waiting) (hmi : (w.mlds.map (·.id)).Nodup)
    {m : Kao.Mld} (hm : m ∈ w.mlds) {t : Int} (hp : (m.id, t) ∈ db'.preds) :
    now ≤ t ∧ 0 < m.walltime ∧ ∃ R : ProcSet, Answers rs m.groups R ∧ ∀ k ∈ R, ∃ row, rs[k]? = some row ∧ row.usable = true ∧
      ∀ j ∈ db'.jobs, j.id ≠ w.id → Occupies j → Holds db' j row.id → BestEffort j ∨ LeavesBy cf.sec db' j t := by
  obtain ⟨db2, c2, sets, sets2, sched, js, ss0, done, Q, hb, _, q, hrows, hcase⟩ := round_facts hord hr h
  obtain ⟨hs, hton, hsi, hg, hn, hcal, hdate⟩ := hr
  have hinv := build_inv hids hbuild
  obtain ⟨hpreds, _⟩ := final_gantt (code := code) (db' := db') hsi q.jobs hrows (hcase.imp (fun h => h.2.2.1) id)
  have qjobs : db2.jobs = db.jobs := q.jobs
  have qmolds : db2.molds = db.molds := q.molds
  have qass : db2.assigned = db.assigned := q.assigned
  have qpreds : db2.preds = (started s db).preds ++ Q.map (fun e => (e.mid, e.start)) := q.preds
  obtain ⟨jw, hjw, jid, jst⟩ := hg.row g hgm w hwg
  obtain ⟨d, hd, d1, d2⟩ := hg.molds g hgm w hwg m hm
  have hnm := waiting_mold hs jw hjw jst
  -- the placement of the job
  obtain ⟨q0, hq0, u1, u2, u3⟩ : ∃ q0 ∈ Q, q0.mid = m.id ∧ q0.start = t ∧ q0.job.id = w.id := by
    rw [hpreds, qpreds] at hp
    rcases List.mem_append.1 hp with p1 | p1
    · obtain ⟨j', hj', ho, ee⟩ := started_preds p1
      simp only [Prod.mk.injEq] at ee
      exact absurd (d1.trans ee.1) (hnm d hd (by rw [d2, jid]) j' hj' ho)
    · obtain ⟨q0, hq0, ee⟩ := List.mem_map.1 p1
      simp only [Prod.mk.injEq] at ee
      refine ⟨q0, hq0, ee.1, ee.2, ?_⟩
      obtain ⟨_, _, m2, hm2, f1, f2⟩ := q.free q0 hq0
      have : m2 = d := nodup_inj hs.molds hm2 hd (by rw [f1, ee.1, d1])
      rw [← f2, this, d2]
  have honce : ((gs.flatMap (·.waiting)).map (·.id)).Nodup := by
    have := hg.once
    rw [List.map_flatMap]
    exact this
  obtain ⟨w2, hw2, v1, m2, hm2, v2, ⟨v3, v4⟩, R, hR, hans⟩ := q.ans q0 hq0
  have hww : w2 = w := nodup_inj honce hw2 (List.mem_flatMap.2 ⟨g, hgm, hwg⟩) (by rw [v1, u3])
  subst hww
  have hmm : m2 = m := nodup_inj hmi hm2 hm (by rw [v2, u1])
  subst hmm
  rw [u2] at hans
  have hnt : now ≤ t := by rw [← u2]; exact (q.free q0 hq0).1
  obtain ⟨A, _, hfind⟩ := hans.shape
  refine ⟨hnt, v3, R, findJob_answers (fun label B hB => hy_lookup hids hbuild hB) hfind hans.ne, fun k hk => ?_⟩
  have hfr : Free ss0 t k := hans.free k hk t (le_refl _) (by omega)
  have hro := hb.alive t k hfr
  obtain ⟨row, r1, r2, _⟩ := (hinv.roids.2 k).1 hro
  obtain ⟨r3, r4⟩ := hinv.num k row r1 r2
  refine ⟨row, r1, r2, fun j hj hjid ho hh => ?_⟩
  -- an old job
  have hmix : j ∈ db.jobs → Holds db j row.id → BestEffort j ∨ ∀ d ∈ db.molds, d.id = j.mold → j.start + (d.walltime + extra cf.sec j) ≤ t := by
    intro hj hh
    by_cases hbe : BestEffort j
    · exact Or.inl hbe
    · refine Or.inr fun d hd hdm => ?_
      by_contra hlt
      exact (hb.busy j hj ho k hro (by rw [r4]; exact hh)).2 hbe d hd hdm t hnt (by omega) hfr
  rcases hcase with ⟨_, _, hd', hL⟩ | ⟨_, k', ks, hd'⟩
  · have hmolds : db'.molds = db.molds := by
      rw [hd', launchAll_molds, qmolds]
      intro e he
      obtain ⟨r0, hr0, e1, _⟩ := extract_sound s cf.sec _ (fun r hr => by rw [((hrows r).1 hr).2.2]; decide) e (List.mem_filter.1 he).1
      obtain ⟨j1, _⟩ := (hrows r0).1 hr0
      have := ((mem_join _ r0).1 j1).2.2.1
      rw [qjobs] at this
      rw [e1]
      exact (hsi _ this).1
    unfold LeavesBy
    rw [hmolds]
    rw [hd'] at hj
    unfold Holds at hh
    rw [hd', launchAll_assigned, qass] at hh
    rcases launchAll_jobs now _ db2 j hj with ⟨k1, k2⟩ | ⟨e, he, j0, hj0, k1, k2⟩
    · rw [qjobs] at k1
      rcases hh with hh | ⟨_, e, he, k3⟩
      · exact hmix k1 hh
      · obtain ⟨q1, hq1, hdue⟩ := hL e he
        obtain ⟨m1, hm1, f1, f2⟩ := hdue.mold
        obtain ⟨m', hm', f3, f4⟩ := hs.own j k1 ho
        have : m1 = m' := nodup_inj hs.molds hm1 hm' (by rw [f1, f3]; exact k3.symm)
        exact absurd (by rw [← f2, this, f4]) (k2 e he)
    · rw [qjobs] at hj0
      obtain ⟨q1, hq1, hdue⟩ := hL e he
      have hmold : j.mold = e.mid := by rw [k2]; rfl
      have hid : j.id = j0.id := by rw [k2]; rfl
      have hstart : j.start = now := by rw [k2]; rfl
      have hsusp : j.suspended = j0.suspended := by rw [k2]; rfl
      obtain ⟨ja, hja, a1, a2⟩ := hdue.row
      have hja0 : ja = j0 := nodup_inj hs.jobs hja hj0 (by rw [a1, k1])
      obtain ⟨m1, hm1, f1, f2⟩ := hdue.mold
      obtain ⟨w3, hw3, x1, m3, hm3, x2, ⟨x3, x4⟩, S, hS, hans3⟩ := q.ans q1 hq1
      obtain ⟨g3, hg3, hwg3⟩ := List.mem_flatMap.1 hw3
      right
      intro d' hd'' hdm
      have hk1 : k ∈ q1.res := by
        rcases hh with hh | ⟨hh, _⟩
        · exact absurd (by rw [f1, ← hmold]; exact hh) (hs.fresh ja hja a2 m1 hm1 (by rw [f2, a1]) row.id)
        · rw [hmold] at hh
          obtain ⟨kk, c1, c2, _⟩ := hdue.res _ hh
          have : kk = k := by
            have e1 := numbered_inverse hn kk (hb.alive _ kk (hans3.free kk ((hS kk).1 c1) _ (le_refl _) (by omega)))
            rw [← e1, ← c2, r3]
          rw [← this]; exact c1
      have hwall := hsec.1 g3 hg3 w3 hwg3 m3 hm3 d' hd'' (by rw [hdm, hmold, x2]; exact hdue.mid.symm)
      have hex : extra cf.sec j = cf.sec := by
        unfold extra
        rw [hsusp, ← hja0, hsec.2 ja hja a2]
        simp
      rw [hex, hstart]
      have hq1s : q1.start = now := by
        have b1 := (q.free q1 hq1).1
        have b2 := hdue.start
        omega
      by_contra hlt
      have hne : q1.job.id ≠ q0.job.id := by
        rw [hdue.id_, u3, k1, ← hid]; exact hjid
      exact pairwise_disjoint q.pair hq1 hq0 hne (t := t) (by omega) (by omega) (by omega) (by omega) k hk1 ((hR k).2 hk)
  · obtain ⟨g1, g2⟩ := killAll_same (k' :: ks) db2
    have g3 := killAll_molds (k' :: ks) db2
    rw [← hd'] at g1 g2 g3
    unfold LeavesBy
    rw [g3, qmolds]
    rw [g1, qjobs] at hj
    unfold Holds at hh
    rw [g2, qass] at hh
    exact hmix hj hh

/-- Without best-effort job a round that can be read ends with the exit code 0. -/
theorem round_zero {cf : Conf} {ctx : Kao.Ctx} {susp labels : List String} {rs : List Res} {s : RS} {ord : List Row → List Row} {gs : List Grp} {now : Int} {db : DB}
    (hids : (rs.map Res.id).Nodup) (hbuild : build susp labels rs = some s) (hord : ∀ l, (ord l).Perm l) (hr : Regular cf ctx s gs now db) (hl : Legible labels rs gs)
    (ht : NoBestEffort db) (hst : AtMostOneStuck cf ctx s gs now db) : ∃ db', Round.round cf ctx s ord gs now db = some (db', 0) := by
  obtain ⟨ss, sched, js, hi, h1, hj⟩ := init_total (ctx := ctx) hr.sound hr.onTime hr.simple hr.numbered hr.noCalendar hr.date.2 (fun j hj ho => (ht j hj ho).1)
  obtain ⟨db', code, hrun, _⟩ := round_total_partial cf ctx susp labels rs s ord gs now db hids hbuild hord hr hl (fun j hj ho => ⟨(ht j hj ho).1, fun hb => absurd hb (ht j hj ho).2⟩) hst
  have hrun' := hrun
  unfold round at hrun
  rw [hi] at hrun
  dsimp only at hrun
  have hnone : ∀ k, (beMap sched).lookup k = none := by
    intro k
    cases hk : (beMap sched).lookup k with
    | none => rfl
    | some b =>
      obtain ⟨e, he, rfl, hbe, _⟩ := (beMap_lookup sched k).1 b hk
      exact absurd hbe (ht _ (hj e he).1 (hj e he).2).2
  have hkill : ∀ (ej : List EJob) (items : List (Nat × Nat)), toKill ej (beMap sched) items [] = some [] := by
    intro ej items
    induction items with
    | nil => rfl
    | cons x items ih =>
      obtain ⟨rid, jid⟩ := x
      unfold toKill
      rw [hnone rid]
      exact ih
  cases hg : groups s cf.sec cf.timeout now js gs (started s db, ctx, [("default", ss)]) with
  | none => rw [hg] at hrun; simp at hrun
  | some z =>
    rw [hg] at hrun
    obtain ⟨db2, c2, sets2⟩ := z
    dsimp only at hrun
    rw [if_neg (idles_le hr hi hg hst)] at hrun
    rcases launchRound_cases _ _ _ _ _ _ _ _ hrun with ⟨rfl, _⟩ | ⟨_, k, ks, hk, _⟩
    · exact ⟨db', hrun'⟩
    · rw [hkill] at hk
      simp at hk

theorem bestEffort_types {j j' : LJob} (h : j.types = j'.types) (hb : BestEffort j) : BestEffort j' := by
  unfold BestEffort tjob typesOf at *
  rw [← h]
  exact hb

/-- **C99** (what holds). When a round has predicted a date for a waiting job, the next round, in which it is the first one, predicts an end at most one second later (or the end of the
job started now, if the date is past): whatever the other jobs, provided that the machines are the same and that the jobs do not outlive what is expected. -/
theorem promise_kept_partial (cf : Conf) (ctx : Kao.Ctx) (susp labels : List String) (rs : List Res) (s : RS) (ord ord2 : List Row → List Row) (gs gs2 : List Grp) (now now2 : Int)
    (db db' db2 db2' : DB) (code code2 : Int) (w : Kao.Job) (hids : (rs.map Res.id).Nodup) (hbuild : build susp labels rs = some s) (hord : ∀ l, (ord l).Perm l)
    (hord2 : ∀ l, (ord2 l).Perm l) (hw : Plain ctx w) (hr : Regular cf ctx s gs now db) (hsec : Secured cf.sec gs db) (hgiven : ∃ g ∈ gs, w ∈ g.waiting)
    (h : round cf ctx s ord gs now db = some (db', code)) (m : Kao.Mld) (hm : m ∈ w.mlds) (t : Int) (hp : (m.id, t) ∈ db'.preds)
    (hcalm : Calm cf.sec db' db2) (hr2 : HeadRound cf ctx labels rs s w gs2 now2 db2) (h2 : round cf ctx s ord2 gs2 now2 db2 = some (db2', code2))
    (hup : ∀ row ∈ rs, row.usable = true → max (t + 1) now2 + m.walltime ≤ row.upto) :
    ∃ m' ∈ w.mlds, ∃ t', (m'.id, t') ∈ db2'.preds ∧ now2 ≤ t' ∧ t' + m'.walltime ≤ max (t + 1) now2 + m.walltime := by
  obtain ⟨g, hgm, hwg⟩ := hgiven
  obtain ⟨hnt, hpos, R, hans, hR⟩ := round_apart hids hbuild hord hr hsec h hgm hwg hw.ids hm hp
  obtain ⟨names, rest, resv, gs', hgs, hbn⟩ := hr2.first
  subst hgs
  have hq : Kao.NoQuotas ctx w := by
    rintro ⟨q1, q2⟩
    rcases hw.quotas with h | h
    · rw [h] at q1; simp at q1
    · rw [h] at q2; simp at q2
  obtain ⟨jw, hjw, jid, jst⟩ := hr2.regular.given.row ⟨names, w :: rest, resv⟩ (by simp) w (by simp)
  refine round_earliest_partial cf ctx susp labels rs s ord2 [] gs' ⟨names, w :: rest, resv⟩ now2 db2 db2' code2 hids hbuild hord2 hr2.regular h2 hr2.held hr2.read hr2.key [] rest w rfl
    hq m hm hpos (hw.alts m hm).2.1 (hw.alts m hm).2.2 R hans (max (t + 1) now2) (le_max_right _ _) (settled_clears hw.deps) (fun k hk => ?_) (by simp) (by simp)
  obtain ⟨row, r1, r2, r3⟩ := hR k hk
  refine ⟨row, r1, r2, hup row (List.mem_of_getElem? r1) r2, fun j hj ho hh => ?_⟩
  obtain ⟨j0, hj0, e1, e2, e3, e4, e5⟩ := hcalm j hj ho
  have hne : j0.id ≠ w.id := by
    intro e
    have : jw = j := nodup_inj hr2.regular.sound.jobs hjw hj (by rw [jid, ← e, e1])
    rw [← this] at ho
    unfold Occupies at ho
    rw [jst] at ho
    simp at ho
  rcases r3 j0 hj0 hne e2 (e4 _ hh) with hbe | hl
  · exact Or.inl ⟨bestEffort_types e3 hbe, by simpa using hbn⟩
  · refine Or.inr fun d hd hdm => ?_
    have h1 := e5 t hl d hd hdm
    have h2 : t + 1 ≤ max (t + 1) now2 := le_max_left _ _
    omega

/-- **C99** (what holds). The first waiting job does not starve: once a round has predicted that it ends at `E`, it is launched at the latest `E - now` rounds after, if the rounds are at
least two seconds apart. The rounds are not assumed to succeed: this is proved (C98), when at most one group of queues has waiting jobs and no date for any of them. -/
theorem head_launched_partial (cf : Conf) (ctx : Kao.Ctx) (susp labels : List String) (rs : List Res) (s : RS) (ord : Nat → List Row → List Row) (gs : Nat → List Grp) (now : Nat → Int)
    (db db' : Nat → DB) (w : Kao.Job) (n : Nat) (hids : (rs.map Res.id).Nodup) (hbuild : build susp labels rs = some s) (hord : ∀ k l, (ord k l).Perm l) (hkill : 0 ≤ cf.kill)
    (halive : ∀ row ∈ rs, row.state ≠ "Absent") (hw : Plain ctx w) (m : Kao.Mld) (hm : m ∈ w.mlds) (t : Int) (hp : (m.id, t) ∈ (db' 0).preds)
    (hlen : t + m.walltime - now 0 ≤ n)
    (hstep : ∀ k ≤ n, (∀ i < k, ¬ Launched w (now i) (db' i)) →
      HeadRound cf ctx labels rs s w (gs k) (now k) (db k) ∧ Legible labels rs (gs k) ∧ NoBestEffort (db k) ∧ AtMostOneStuck cf ctx s (gs k) (now k) (db k) ∧
        ((round cf ctx s (ord k) (gs k) (now k) (db k)).map (·.1)).getD (db k) = db' k)
    (hnext : ∀ k < n, Calm cf.sec (db' k) (db (k + 1)) ∧ now k + 2 ≤ now (k + 1))
    (hup : ∀ row ∈ rs, row.usable = true → ∀ k ≤ n, now k + (t + m.walltime - now 0) ≤ row.upto) :
    ∃ k ≤ n, Launched w (now k) (db' k) := by
  by_contra hno
  have hno' : ∀ k ≤ n, ¬ Launched w (now k) (db' k) := fun k hk hl => hno ⟨k, hk, hl⟩
  have hst : ∀ k ≤ n, HeadRound cf ctx labels rs s w (gs k) (now k) (db k) ∧ round cf ctx s (ord k) (gs k) (now k) (db k) = some (db' k, 0) :=
    fun k hk => by
      obtain ⟨a1, a2, a3, ast, a4⟩ := hstep k hk (fun i hi => hno' i (by omega))
      obtain ⟨x, hx⟩ := round_zero hids hbuild (hord k) a1.regular a2 a3 ast
      rw [hx] at a4
      exact ⟨a1, by rw [hx, ← a4]; rfl⟩
  have hmem : ∀ k ≤ n, ∃ g ∈ gs k, w ∈ g.waiting := by
    intro k hk
    obtain ⟨names, rest, resv, gs', hgs, _⟩ := (hst k hk).1.first
    exact ⟨_, by rw [hgs]; exact List.mem_cons_self, by simp⟩
  -- the time left to wait decreases
  have key : ∀ k ≤ n, ∃ mk ∈ w.mlds, ∃ tk, (mk.id, tk) ∈ (db' k).preds ∧ tk + mk.walltime - now k ≤ t + m.walltime - now 0 - k := by
    intro k
    induction k with
    | zero => intro _; exact ⟨m, hm, t, hp, by simp⟩
    | succ k ih =>
      intro hk
      obtain ⟨mk, hmk, tk, hpk, hle⟩ := ih (by omega)
      obtain ⟨hd, hrun⟩ := hst k (by omega)
      obtain ⟨hc, hsp⟩ := hnext k (by omega)
      have hlate : now k < tk := by
        by_contra hc
        obtain ⟨g, hg, hwg⟩ := hmem k (by omega)
        exact hno' k (by omega) (due_launched hids hbuild (hord k) hd.regular hrun hkill halive hg hwg hmk hpk (by omega))
      obtain ⟨m', hm', t', hp', a1, a2⟩ := promise_kept_partial cf ctx susp labels rs s (ord k) (ord (k + 1)) (gs k) (gs (k + 1)) (now k) (now (k + 1)) (db k) (db' k) (db (k + 1))
        (db' (k + 1)) 0 0 w hids hbuild (hord k) (hord (k + 1)) hw hd.regular hd.secured (hmem k (by omega)) hrun mk hmk tk hpk hc (hst (k + 1) hk).1 (hst (k + 1) hk).2
        (fun row hrow hu => by
          have h1 := hup row hrow hu (k + 1) hk
          rcases max_choice (tk + 1) (now (k + 1)) with e | e <;> rw [e] <;> omega)
      refine ⟨m', hm', t', hp', ?_⟩
      rcases max_choice (tk + 1) (now (k + 1)) with e | e <;> rw [e] at a2 <;> push_cast <;> omega
  obtain ⟨mk, hmk, tk, hpk, hle⟩ := key n (le_refl _)
  obtain ⟨g, hg, hwg⟩ := hmem n (le_refl _)
  obtain ⟨b1, b2, _⟩ := round_apart hids hbuild (hord n) (hst n (le_refl _)).1.regular (hst n (le_refl _)).1.secured (hst n (le_refl _)).2 hg hwg hw.ids hmk hpk
  omega

/-! ## A case which meets the hypotheses -/

/-- The first waiting job asks for the machines 5 and 7 during 500 s, the second one for the machine 7 during 100 s. -/
def slipW : Kao.Job := { id := 3, mlds := [⟨13, 500, [⟨[("id", 2)], {0, 1}⟩]⟩], deps := [⟨8, "Terminated", some 0⟩, ⟨9, "Error", some 256⟩] }
def slipX : Kao.Job := { id := 4, mlds := [⟨14, 100, [⟨[("id", 1)], {1}⟩]⟩] }

/-- The job 1 runs on the machine 5 until 200, the job 2 on the machine 9 until 201. -/
def slipDb : DB :=
  ⟨[exJob 1 "Running" [] 30 11, exJob 2 "Running" [] 40 12, exJob 3 "Waiting" [] 0 0, exJob 4 "Waiting" [] 0 0],
    [⟨11, 1, 110⟩, ⟨12, 2, 101⟩, ⟨13, 3, 440⟩, ⟨14, 4, 40⟩], [], [], [(11, 5), (12, 9)], [], [], []⟩

def slipG1 : List Grp := [⟨["default"], [slipW, slipX], []⟩]
def slipG2 : List Grp := [⟨["default"], [slipW], []⟩]

/-- After the first round, at 100. -/
def slip1 : DB := ((exRun slipG1 100 slipDb).map (·.1)).getD exDb0
/-- The job 4 was launched; the job 1 ended early. -/
def slipDb2 : DB := exSet 4 "Running" (exSet 1 "Terminated" slip1)
/-- After the second round, at 110. -/
def slip2 : DB := ((exRun slipG2 110 slipDb2).map (·.1)).getD exDb0
/-- All the jobs ended. -/
def slipDb3 : DB := exSet 4 "Terminated" (exSet 2 "Terminated" slip2)
/-- After the third round, at 210. -/
def slip3 : DB := ((exRun slipG2 210 slipDb3).map (·.1)).getD exDb0

theorem calm_of {sec : Int} {db db' : DB} (h1 : db'.molds = db.molds) (h2 : db'.assigned = db.assigned)
    (h3 : ∀ j' ∈ db'.jobs, Occupies j' → ∃ j ∈ db.jobs, j.id = j'.id ∧ Occupies j ∧ j.types = j'.types ∧ j.mold = j'.mold ∧ j.start = j'.start ∧ j.suspended = j'.suspended ∧
      j.suspSum = j'.suspSum) : Calm sec db db' := by
  intro j' hj' ho
  obtain ⟨j, hj, a1, a2, a3, a4, a5, a6, a7⟩ := h3 j' hj' ho
  refine ⟨j, hj, a1, a2, a3, ?_, ?_⟩
  · unfold Holds
    rw [h2, a4]
    exact fun r hr => hr
  · intro t hl d hd hdm
    have h := hl d (by rw [← h1]; exact hd) (by rw [a4]; exact hdm)
    unfold extra at h ⊢
    rw [a5, a6, a7] at h
    exact h

theorem calm_self (sec : Int) (db : DB) : Calm sec db db := fun j hj ho => ⟨j, hj, rfl, ho, rfl, fun _ h => h, fun _ h => h⟩

theorem heldUsable_of {db : DB} (h : ∀ a ∈ db.assigned, a.2 = 5 ∨ a.2 = 7 ∨ a.2 = 9) : HeldUsable exRows db := by
  intro j hj ho i hi
  rcases h _ hi with e | e | e
  · exact ⟨exRows[0], List.getElem_mem _, by rfl, e.symm⟩
  · exact ⟨exRows[1], List.getElem_mem _, by rfl, e.symm⟩
  · exact ⟨exRows[2], List.getElem_mem _, by rfl, e.symm⟩

theorem slip_head1 : HeadRound { sec := 60 } exCtx ["id"] exRows exS slipW slipG1 100 slipDb :=
  ⟨exRegular (by decide +kernel) (by decide +kernel) (by decide +kernel) (by decide +kernel) (by decide +kernel) (by decide +kernel)
      ⟨by decide +kernel, by decide +kernel, by decide +kernel, by decide +kernel, by decide +kernel⟩ (by decide +kernel),
    ⟨["default"], [slipX], [], [], rfl, by decide⟩, by unfold Secured; decide +kernel, heldUsable_of (by decide +kernel), by unfold Readable; decide +kernel,
    by unfold SameKey; decide +kernel⟩

theorem slip_head2 : HeadRound { sec := 60 } exCtx ["id"] exRows exS slipW slipG2 110 slipDb2 :=
  ⟨exRegular (by decide +kernel) (by decide +kernel) (by decide +kernel) (by decide +kernel) (by decide +kernel) (by decide +kernel)
      ⟨by decide +kernel, by decide +kernel, by decide +kernel, by decide +kernel, by decide +kernel⟩ (by decide +kernel),
    ⟨["default"], [], [], [], rfl, by decide⟩, by unfold Secured; decide +kernel, heldUsable_of (by decide +kernel), by unfold Readable; decide +kernel,
    by unfold SameKey; decide +kernel⟩

theorem slip_head3 : HeadRound { sec := 60 } exCtx ["id"] exRows exS slipW slipG2 210 slipDb3 :=
  ⟨exRegular (by decide +kernel) (by decide +kernel) (by decide +kernel) (by decide +kernel) (by decide +kernel) (by decide +kernel)
      ⟨by decide +kernel, by decide +kernel, by decide +kernel, by decide +kernel, by decide +kernel⟩ (by decide +kernel),
    ⟨["default"], [], [], [], rfl, by decide⟩, by unfold Secured; decide +kernel, heldUsable_of (by decide +kernel), by unfold Readable; decide +kernel,
    by unfold SameKey; decide +kernel⟩

theorem slip_plain : Plain exCtx slipW := ⟨by decide, by decide, Or.inl rfl, by
  intro m hm
  have : m = ⟨13, 500, [⟨[("id", 2)], {0, 1}⟩]⟩ := by simpa [slipW] using hm
  subst this
  exact ⟨by decide, by simp, by intro g hg _ l hl; simp at hg; subst hg; simp at hl; subst hl; decide⟩⟩

theorem legible_of {gs : List Grp} (h1 : ∀ g ∈ gs, ∀ w ∈ g.waiting, w.keyCache = [] ∧ ∀ m ∈ w.mlds, 0 < m.walltime)
    (h2 : ∀ g ∈ gs, ∀ w ∈ g.waiting, ∀ m ∈ w.mlds, Readable ["id"] m.groups) (h3 : ∀ g ∈ gs, ∀ w ∈ g.waiting, ∀ m ∈ w.mlds, Counts m.groups) : Legible ["id"] exRows gs :=
  fun g hg w hw => ⟨Or.inl (h1 g hg w hw).1, fun m hm => ⟨(h1 g hg w hw).2 m hm, h2 g hg w hw m hm, Or.inr (h3 g hg w hw m hm)⟩⟩

def slipNow (k : Nat) : Int := if k = 0 then 100 else if k = 1 then 110 else 206 + 2 * k
def slipGs (k : Nat) : List Grp := if k = 0 then slipG1 else slipG2
def slipBefore (k : Nat) : DB := if k = 0 then slipDb else if k = 1 then slipDb2 else if k = 2 then slipDb3 else slip3
def slipAfter (k : Nat) : DB := if k = 0 then slip1 else if k = 1 then slip2 else slip3

/-- The hypotheses of `head_launched_partial` hold for three rounds: the first job is launched by the third one. -/
theorem head_example : Plain exCtx slipW ∧ (13, 200) ∈ (slipAfter 0).preds ∧
    (∀ k ≤ 600, (∀ i < k, ¬ Launched slipW (slipNow i) (slipAfter i)) → HeadRound { sec := 60 } exCtx ["id"] exRows exS slipW (slipGs k) (slipNow k) (slipBefore k) ∧
      Legible ["id"] exRows (slipGs k) ∧ NoBestEffort (slipBefore k) ∧ AtMostOneStuck { sec := 60 } exCtx exS (slipGs k) (slipNow k) (slipBefore k) ∧
      ((exRun (slipGs k) (slipNow k) (slipBefore k)).map (·.1)).getD (slipBefore k) = slipAfter k) ∧
    (∀ k < 600, Calm 60 (slipAfter k) (slipBefore (k + 1)) ∧ slipNow k + 2 ≤ slipNow (k + 1)) ∧
    (∀ row ∈ exRows, row.usable = true → ∀ k ≤ 600, slipNow k + (200 + 500 - slipNow 0) ≤ row.upto) ∧ ¬ Launched slipW (slipNow 1) (slipAfter 1) ∧
    Launched slipW (slipNow 2) (slipAfter 2) := by
  have hl2 : Launched slipW (slipNow 2) (slipAfter 2) := by unfold Launched; decide +kernel
  refine ⟨slip_plain, by decide +kernel, fun k _ hno => ?_, fun k hk => ⟨?_, ?_⟩, ?_, by unfold Launched; decide +kernel, hl2⟩
  · have hk3 : k = 0 ∨ k = 1 ∨ k = 2 := by
      by_contra hc
      exact hno 2 (by omega) hl2
    rcases hk3 with rfl | rfl | rfl
    · exact ⟨slip_head1, legible_of (by decide +kernel) (by unfold Readable; decide +kernel) (by unfold Counts; decide +kernel), by unfold NoBestEffort; decide +kernel,
        one_group _ _ _ _ _ _ (by decide), by decide +kernel⟩
    · exact ⟨slip_head2, legible_of (by decide +kernel) (by unfold Readable; decide +kernel) (by unfold Counts; decide +kernel), by unfold NoBestEffort; decide +kernel,
        one_group _ _ _ _ _ _ (by decide), by decide +kernel⟩
    · exact ⟨slip_head3, legible_of (by decide +kernel) (by unfold Readable; decide +kernel) (by unfold Counts; decide +kernel), by unfold NoBestEffort; decide +kernel,
        one_group _ _ _ _ _ _ (by decide), by decide +kernel⟩
  · by_cases h0 : k = 0
    · subst h0
      exact calm_of (by decide +kernel) (by decide +kernel) (by decide +kernel)
    · by_cases h1 : k = 1
      · subst h1
        exact calm_of (by decide +kernel) (by decide +kernel) (by decide +kernel)
      · have e1 : slipAfter k = slip3 := by unfold slipAfter; rw [if_neg h0, if_neg h1]
        have e2 : slipBefore (k + 1) = slip3 := by
          unfold slipBefore
          rw [if_neg (by omega), if_neg (by omega), if_neg (by omega)]
        rw [e1, e2]
        exact calm_self _ _
  · unfold slipNow
    split <;> split <;> (try split) <;> (try split) <;> push_cast <;> omega
  · intro row hrow _ k hk
    have hu : row.upto = 2147483646 := by
      simp only [exRows, List.map_cons, List.map_nil, List.mem_cons, List.not_mem_nil, or_false] at hrow
      rcases hrow with rfl | rfl | rfl <;> rfl
    rw [hu]
    unfold slipNow
    split
    · simp
    · split <;> simp <;> omega

/-! ## Where the property fails -/

/-- **C99** is violated by one second: the date predicted for the first waiting job is 200, then 201, although a job ended earlier than expected and the machines are the same. -/
theorem slip_violated : HeadRound { sec := 60 } exCtx ["id"] exRows exS slipW slipG1 100 slipDb ∧ exRun slipG1 100 slipDb = some (slip1, 0) ∧ Calm 60 slip1 slipDb2 ∧
    HeadRound { sec := 60 } exCtx ["id"] exRows exS slipW slipG2 110 slipDb2 ∧ exRun slipG2 110 slipDb2 = some (slip2, 0) ∧
    slip1.preds.filter (fun p => p.1 = 13) = [(13, 200)] ∧ slip2.preds.filter (fun p => p.1 = 13) = [(13, 201)] :=
  ⟨slip_head1, by decide +kernel, calm_of (by decide +kernel) (by decide +kernel) (by decide +kernel), slip_head2, by decide +kernel, by decide +kernel, by decide +kernel⟩

/-- The first job asks for the machines 5 and 7 during 160 s, the second one for the machines 7 and 9 during 100 s. -/
def secondA : Kao.Job := { id := 3, mlds := [⟨13, 160, [⟨[("id", 2)], {0, 1}⟩]⟩] }
def secondB : Kao.Job := { id := 4, mlds := [⟨14, 100, [⟨[("id", 2)], {1, 2}⟩]⟩] }

/-- The job 1 runs on the machine 5 until 300, the job 2 on the machine 9 until 150. -/
def secondDb : DB :=
  ⟨[exJob 1 "Running" [] 30 11, exJob 2 "Running" [] 40 12, exJob 3 "Waiting" [] 0 0, exJob 4 "Waiting" [] 0 0],
    [⟨11, 1, 210⟩, ⟨12, 2, 50⟩, ⟨13, 3, 100⟩, ⟨14, 4, 40⟩], [], [], [(11, 5), (12, 9)], [], [], []⟩

def secondGs : List Grp := [⟨["default"], [secondA, secondB], []⟩]
def second1 : DB := ((exRun secondGs 100 secondDb).map (·.1)).getD exDb0
def secondDb2 : DB := exSet 1 "Terminated" second1
def second2 : DB := ((exRun secondGs 110 secondDb2).map (·.1)).getD exDb0

/-- **C99** is violated for the jobs after the first one: the second waiting job was expected at 150; a running job ends early, hence the first job starts at once and the second one is
expected at 270. -/
theorem second_violated : Regular { sec := 60 } exCtx exS secondGs 100 secondDb ∧ exRun secondGs 100 secondDb = some (second1, 0) ∧ Calm 60 second1 secondDb2 ∧
    Regular { sec := 60 } exCtx exS secondGs 110 secondDb2 ∧ exRun secondGs 110 secondDb2 = some (second2, 0) ∧
    second1.preds.filter (fun p => p.1 = 14) = [(14, 150)] ∧ second2.preds.filter (fun p => p.1 = 14) = [(14, 270)] :=
  ⟨exRegular (by decide +kernel) (by decide +kernel) (by decide +kernel) (by decide +kernel) (by decide +kernel) (by decide +kernel)
      ⟨by decide +kernel, by decide +kernel, by decide +kernel, by decide +kernel, by decide +kernel⟩ (by decide +kernel),
    by decide +kernel, calm_of (by decide +kernel) (by decide +kernel) (by decide +kernel),
    exRegular (by decide +kernel) (by decide +kernel) (by decide +kernel) (by decide +kernel) (by decide +kernel) (by decide +kernel)
      ⟨by decide +kernel, by decide +kernel, by decide +kernel, by decide +kernel, by decide +kernel⟩ (by decide +kernel),
    by decide +kernel, by decide +kernel, by decide +kernel⟩

end Oar.Round
